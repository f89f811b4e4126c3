import Verif.Lemmas.CalcParse
/-
C92: programs of the specification are split into their statements, parsed, and evaluated one after the other.
-/
namespace Iv
variable {V O H : Type}

/-! ### Braces -/

/-- the braces match -/
def Nested (s : List Token) : Prop := (∀ p q, s = p ++ q → 0 ≤ braceLevel p) ∧ braceLevel s = 0

/-- the braces match and there are no diamonds outside of them -/
def Flat (s : List Token) : Prop := OneStatement s ∧ braceLevel s = 0

theorem Flat.nested {s : List Token} (h : Flat s) : Nested s := ⟨h.1.1, h.2⟩

theorem nonneg_append {a b : List Token} (ha : ∀ p q, a = p ++ q → 0 ≤ braceLevel p) (h0 : braceLevel a = 0)
    (hb : ∀ p q, b = p ++ q → 0 ≤ braceLevel p) : ∀ p q, a ++ b = p ++ q → 0 ≤ braceLevel p := by
  intro p q e
  rcases List.append_eq_append_iff.1 e with ⟨a', rfl, e2⟩ | ⟨c', rfl, _⟩
  · rw [braceLevel_append, h0]
    have := hb a' q e2
    omega
  · exact ha p c' rfl

theorem Nested.append {a b : List Token} (ha : Nested a) (hb : Nested b) : Nested (a ++ b) :=
  ⟨nonneg_append ha.1 ha.2 hb.1, by rw [braceLevel_append, ha.2, hb.2]; rfl⟩

theorem Flat.append {a b : List Token} (ha : Flat a) (hb : Flat b) : Flat (a ++ b) := by
  refine ⟨⟨nonneg_append ha.1.1 ha.2 hb.1.1, ?_⟩, by rw [braceLevel_append, ha.2, hb.2]; rfl⟩
  intro p d q e hd
  rcases List.append_eq_append_iff.1 e with ⟨a', rfl, e2⟩ | ⟨c', rfl, e2⟩
  · rw [braceLevel_append, ha.2]
    have := hb.1.2 a' d q e2 hd
    omega
  · cases c' with
    | nil =>
      have := hb.1.2 [] d q e2.symm hd
      simp [braceLevel] at this
    | cons x c' =>
      simp only [List.cons_append, List.cons.injEq] at e2
      exact ha.1.2 p d c' (by rw [e2.1]) hd

theorem flat_nil : Flat [] := by
  refine ⟨⟨fun p q e => ?_, fun p d q e => ?_⟩, rfl⟩
  · rw [nil_pre e]; simp [braceLevel]
  · simp at e

theorem nested_one {t : Token} (h1 : t.t ≠ .leftBrace) (h2 : t.t ≠ .rightBrace) : Nested [t] := by
  refine ⟨fun p q e => ?_, by simp [braceLevel, h1, h2]⟩
  cases p with
  | nil => simp [braceLevel]
  | cons x p =>
    simp only [List.cons_append, List.cons.injEq] at e
    obtain ⟨rfl, e⟩ := e
    rw [nil_pre e]
    simp [braceLevel, h1, h2]

theorem flat_one {t : Token} (h1 : t.t ≠ .leftBrace) (h2 : t.t ≠ .rightBrace) (h3 : t.t ≠ .diamond) : Flat [t] := by
  have h := nested_one h1 h2
  refine ⟨⟨h.1, fun p d q e hd => ?_⟩, h.2⟩
  cases p with
  | nil => simp at e; exact absurd (e.1 ▸ hd) h3
  | cons x p => simp at e

theorem flat_cons {t : Token} (h1 : t.t ≠ .leftBrace) (h2 : t.t ≠ .rightBrace) (h3 : t.t ≠ .diamond) {s : List Token} (h : Flat s) :
    Flat (t :: s) := Flat.append (flat_one h1 h2 h3) h

theorem flat_braces {b : List Token} (h : Nested b) : Flat (tLC :: (b ++ [tRC])) := by
  refine ⟨⟨fun p q e => ?_, fun p d q e hd => ?_⟩, ?_⟩
  · cases p with
    | nil => simp [braceLevel]
    | cons x p =>
      simp only [List.cons_append, List.cons.injEq] at e
      obtain ⟨rfl, e⟩ := e
      rcases List.append_eq_append_iff.1 e with ⟨a', rfl, e2⟩ | ⟨c', rfl, _⟩
      · cases a' with
        | nil => simp [braceLevel, h.2]
        | cons y a' =>
          simp only [List.cons_append, List.cons.injEq] at e2
          obtain ⟨rfl, e2⟩ := e2
          rw [nil_pre e2]
          simp [braceLevel, braceLevel_append, h.2]
      · have := h.1 p c' rfl
        simp [braceLevel]
        omega
  · cases p with
    | nil => simp at e; obtain ⟨rfl, _⟩ := e; simp at hd
    | cons x p =>
      simp only [List.cons_append, List.cons.injEq] at e
      obtain ⟨rfl, e⟩ := e
      rcases List.append_eq_append_iff.1 e with ⟨a', rfl, e2⟩ | ⟨c', rfl, e2⟩
      · cases a' with
        | nil => simp [braceLevel, h.2]
        | cons y a' => simp at e2
      · have := h.1 p c' rfl
        simp [braceLevel]
        omega
  · simp [braceLevel, braceLevel_append, h.2]

/-! ### The tokens of programs -/

theorem op_flat (o : Calc.Op) : Flat o.toks := by
  cases o <;> first | exact flat_nil | exact flat_one (by decide) (by decide) (by decide)

theorem nums_flat : (ns : List Int) → Flat (ns.map Calc.numTok)
  | [] => flat_nil
  | n :: ns => flat_cons (by simp [Calc.numTok]) (by simp [Calc.numTok]) (by simp [Calc.numTok]) (nums_flat ns)

mutual
theorem tm_flat : (t : Calc.Tm) → Flat t.toks
  | .num n ns => by rw [Calc.Tm.toks]; exact nums_flat _
  | .var x => by rw [Calc.Tm.toks]; exact flat_one (by simp [Calc.ident]) (by simp [Calc.ident]) (by simp [Calc.ident])
  | .mon f o r => by rw [Calc.Tm.toks]; exact Flat.append (Flat.append (fn_flat f) (op_flat o)) (tm_flat r)
  | .dya l f o r => by
    rw [Calc.Tm.toks]
    refine Flat.append (Flat.append (Flat.append ?_ (fn_flat f)) (op_flat o)) (tm_flat r)
    split
    · exact tm_flat l
    · exact flat_cons (by decide) (by decide) (by decide) (Flat.append (tm_flat l) (flat_one (by decide) (by decide) (by decide)))

theorem fn_flat : (f : Calc.Fn) → Flat f.toks
  | .prim p => by rw [Calc.Fn.toks]; exact flat_one (by simp [Calc.sym]) (by simp [Calc.sym]) (by simp [Calc.sym])
  | .name f => by rw [Calc.Fn.toks]; exact flat_one (by simp [Calc.ident]) (by simp [Calc.ident]) (by simp [Calc.ident])
  | .lam b => by rw [Calc.Fn.toks]; exact flat_braces (body_nested b)

theorem body_nested : (b : Calc.Body) → Nested b.toks
  | .ret t => by rw [Calc.Body.toks]; exact (tm_flat t).nested
  | .set x t b => by
    rw [Calc.Body.toks]
    refine Nested.append (a := Calc.ident x :: Calc.sym '←' :: t.toks) (Flat.nested ?_) ?_
    · exact flat_cons (by simp [Calc.ident]) (by simp [Calc.ident]) (by simp [Calc.ident])
        (flat_cons (by simp [Calc.sym]) (by simp [Calc.sym]) (by simp [Calc.sym]) (tm_flat t))
    · exact Nested.append (a := [tDia]) (nested_one (by decide) (by decide)) (body_nested b)
  | .guard c t b => by
    rw [Calc.Body.toks]
    refine Nested.append (a := c.toks ++ tColon :: t.toks) (Nested.append (tm_flat c).nested ?_)
      (Nested.append (a := [tDia]) (nested_one (by decide) (by decide)) (body_nested b))
    exact Nested.append (a := [tColon]) (nested_one (by decide) (by decide)) (tm_flat t).nested
end

theorem stmt_flat (s : Calc.Stmt) : Flat s.toks := by
  have h2 : ∀ {x : String} {ts : List Token}, Flat ts → Flat (Calc.ident x :: Calc.sym '←' :: ts) := fun h =>
    flat_cons (by simp [Calc.ident]) (by simp [Calc.ident]) (by simp [Calc.ident])
      (flat_cons (by simp [Calc.sym]) (by simp [Calc.sym]) (by simp [Calc.sym]) h)
  cases s with
  | shw t => exact tm_flat t
  | set x t => exact h2 (tm_flat t)
  | fn f b => exact h2 (fn_flat (.lam b))

theorem fn_toks_ne (f : Calc.Fn) : f.toks ≠ [] := by cases f <;> simp [Calc.Fn.toks]

theorem stmt_ne (s : Calc.Stmt) : s.toks ≠ [] := by
  cases s with
  | shw t =>
    cases t with
    | num n ns => simp [Calc.Stmt.toks, Calc.Tm.toks]
    | var x => simp [Calc.Stmt.toks, Calc.Tm.toks]
    | mon f o r => simp [Calc.Stmt.toks, Calc.Tm.toks, fn_toks_ne]
    | dya l f o r => simp [Calc.Stmt.toks, Calc.Tm.toks, fn_toks_ne]
  | set x t => simp [Calc.Stmt.toks]
  | fn f b => simp [Calc.Stmt.toks]

theorem prog_statements : (p : List Calc.Stmt) → Statements (Calc.progToks p) (p.map Calc.Stmt.toks)
  | [] => .nil
  | [s] => .last _ (stmt_ne s) (stmt_flat s).1
  | s :: t :: p => .cons _ _ _ _ (stmt_flat s).1 (stmt_flat s).2 rfl (prog_statements (t :: p))

theorem stmts_parse {ctx : PCtx (AVal V O)} {v f : String → Prop} (hc : CalcCtx ctx v f) : (p : List Calc.Stmt) → (∀ s ∈ p, s.Uses v f) →
    (p.map Calc.Stmt.toks).mapM (parseOne ctx) = .ok (p.map (fun s => some (s.expr : Expr (AVal V O))))
  | [], _ => rfl
  | s :: p, h => by
    rw [List.map_cons, List.mapM_cons, stmt_parse hc s (h s (by simp)), stmts_parse hc p (fun x hx => h x (by simp [hx]))]
    rfl

/-- a program is parsed to the expressions of its statements -/
theorem prog_parse {ctx : PCtx (AVal V O)} {v f : String → Prop} (hc : CalcCtx ctx v f) (p : List Calc.Stmt) (hne : p ≠ [])
    (h : ∀ s ∈ p, s.Uses v f) : parseProgram ctx (Calc.progToks p) = .ok (p.map (fun s => some (s.expr : Expr (AVal V O)))) := by
  rw [C47_statements ctx _ _ (prog_statements p) (by simpa using hne)]
  exact stmts_parse hc p h

end Iv

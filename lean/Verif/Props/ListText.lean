import Verif.Model.ListText
import Verif.Model.Package
import Verif.Props.Format
import Verif.Props.Program
import Verif.Props.Calls
import Verif.Lemmas.CalcScan
/-
C97: the text of a nested list is an expression for this list.
-/
namespace Iv
variable {V O D H : Type}

/-- the value is a number whose text is one number for the scanner, and which is read back from it -/
def NumberText (env : TextEnv V O) (pp : Int) (x : TNum V) : Prop :=
  BeginsNumber (itemText env pp (.num x)) ∧ (∀ c ∈ itemText env pp (.num x), InNumber c) ∧
    parseNumber env (itemText env pp (.num x)) = some x

/-- strings and numbers with a text -/
def ScalarText (env : TextEnv V O) (pp : Int) : UItem V O → Prop
  | .str _ => True
  | .num x => NumberText env pp x
  | .other _ _ => False

/-- Values that can be typed in: strings, numbers, vectors of them with two or more elements, and lists of such values and of empty arrays that
have at least one element. -/
inductive Typable (env : TextEnv V O) (pp : Int) : LVal V O → Prop
  | item (x) : ScalarText env pp x → Typable env pp (.item x)
  | vector (xs) : 2 ≤ xs.length → (∀ x ∈ xs, ScalarText env pp x) → Typable env pp (.arr [xs.length] xs)
  | list (xs) : xs ≠ [] → (∀ x ∈ xs, x ≠ .empty → Typable env pp x) → Typable env pp (.list xs)

/-- The interpreter reads numbers and strings as the values they are the texts of, and builds vectors and lists of their elements; parentheses,
the semicolon and the blank are neither symbols nor letters.  `val` is the value of the interpreter. -/
structure BuildsLists (w : World D H) (env : TextEnv V O) (val : LVal V O → D) : Prop where
  number : ∀ s, w.pctx.number s = (parseNumber env s.toList).map (fun x => val (.item (.num x)))
  str : ∀ s, w.pctx.str s = val (.item (.str s))
  empty : w.pctx.empty = val .empty
  isScalar : ∀ x, w.sys.isScalar (val (.item x)) = true
  strand : ∀ xs : List (UItem V O), 2 ≤ xs.length →
    w.sys.strand (xs.map (fun x => .data (val (.item x)))) = .ret (.ok (.data (val (.arr [xs.length] xs))))
  list : ∀ xs, w.sys.list (xs.map (fun x => .data (val x))) = .ret (.ok (.data (val (.list xs))))
  plain : ∀ c ∈ ['(', ')', ';', ' '], w.ctx.symbol c = none ∧ w.ctx.letter c = false
  load : ∀ p, w.load p = none

theorem LVal.ind {P : LVal V O → Prop} (hi : ∀ x, P (.item x)) (he : P .empty) (ha : ∀ ds xs, P (.arr ds xs))
    (hl : ∀ xs, (∀ x ∈ xs, P x) → P (.list xs)) : ∀ v, P v
  | .item x => hi x
  | .empty => he
  | .arr ds xs => ha ds xs
  | .list xs => hl xs (fun x _ => LVal.ind hi he ha hl x)
termination_by v => sizeOf v
decreasing_by have := List.sizeOf_lt_of_mem ‹_›; simp; omega

/-- the token of a scalar -/
def scalarTok (env : TextEnv V O) (pp : Int) : UItem V O → Token
  | .str s => ⟨.string, s⟩
  | x => ⟨.number, String.ofList (itemText env pp x)⟩

mutual
/-- the tokens of a value -/
def lvalToks (env : TextEnv V O) (pp : Int) : LVal V O → List Token
  | .item x => [scalarTok env pp x]
  | .empty => []
  | .arr _ xs => xs.map (scalarTok env pp)
  | .list xs => tLP :: (listToks env pp xs ++ [tRP])
/-- the tokens of elements -/
def listToks (env : TextEnv V O) (pp : Int) : List (LVal V O) → List Token
  | [] => []
  | x :: xs => lvalToks env pp x ++ tSemi :: listToks env pp xs
end

mutual
/-- the expression of a value -/
def lvalExpr (val : LVal V O → D) : LVal V O → Expr D
  | .item x => .lit (val (.item x))
  | .empty => .lit (val .empty)
  | .arr _ xs => .strand (xs.map (fun x => .lit (val (.item x))))
  | .list xs => .list (lvalExprs val xs)
/-- the expressions of elements -/
def lvalExprs (val : LVal V O → D) : List (LVal V O) → List (Expr D)
  | [] => []
  | x :: xs => lvalExpr val x :: lvalExprs val xs
end

/-! ### Texts -/

theorem lvalText_ok (env : TextEnv V O) (pp : Int) (h2 : pp ≠ -2) (h3 : pp ≠ -3) (v : LVal V O) : ∃ t, lvalText env pp v = .ok t := by
  induction v using LVal.ind with
  | hi x => exact ⟨_, rfl⟩
  | he => exact ⟨_, rfl⟩
  | ha ds xs => exact ⟨_, by rw [lvalText, arrayText, if_neg h2, if_neg h3]⟩
  | hl xs ih =>
    have : ∃ ts, lvalTexts env pp xs = .ok ts := by
      clear h2 h3
      induction xs with
      | nil => exact ⟨[], rfl⟩
      | cons x xs ihx =>
        obtain ⟨t, e1⟩ := ih x (by simp)
        obtain ⟨ts, e2⟩ := ihx (fun y hy => ih y (by simp [hy]))
        exact ⟨t :: ts, by simp [lvalTexts, e1, e2, bind, Except.bind, pure, Except.pure]⟩
    obtain ⟨ts, e⟩ := this
    simp only [lvalText, e, bind, Except.bind, pure, Except.pure]
    exact ⟨_, rfl⟩

/-! ### The scanner -/

theorem lex_scalar (ctx : ScanCtx) (env : TextEnv V O) (hn : env.print '\n' = false) (pp : Int) (hp : pp < 0) (x : UItem V O)
    (hx : ScalarText env pp x) (rest : List Char) (hr : ∀ c, rest.head? = some c → ¬ InNumber c) :
    Lexeme ctx (itemText env pp x) (scalarTok env pp x) rest := by
  cases x with
  | str s =>
    have := C72_literal ctx env.print hn pp hp s.toList rest
    rw [String.ofList_toList] at this
    exact .literal _ _ _ this
  | num x =>
    obtain ⟨h1, h2, h3⟩ := hx
    refine .number _ rest ?_ h2 hr
    revert h1
    generalize itemText env pp (.num x) = t
    intro h1
    cases t with
    | nil => exact absurd h1 (by simp [BeginsNumber])
    | cons c cs =>
      rcases h1 with h1 | h1 | ⟨h1, d, hd, hd'⟩
      · exact .inl h1
      · exact .inr (.inl h1)
      · refine .inr (.inr ⟨h1, d, ?_, hd'⟩)
        cases cs with
        | nil => simp at hd
        | cons => simpa using hd
  | other ty v => exact absurd hx (by simp [ScalarText])

/-- after the text there is a semicolon, a parenthesis or nothing -/
def Closed (rest : List Char) : Prop := ∀ c, rest.head? = some c → c ∈ ['(', ')', ';', ' ']

theorem closed_number {rest : List Char} (h : Closed rest) : ∀ c, rest.head? = some c → ¬ InNumber c := by
  intro c hc
  have := h c hc
  simp only [List.mem_cons, List.not_mem_nil, or_false] at this
  rcases this with rfl | rfl | rfl | rfl <;> (unfold InNumber Digit; decide)

theorem lex_close (ctx : ScanCtx) (hp : ∀ c ∈ ['(', ')', ';', ' '], ctx.symbol c = none ∧ ctx.letter c = false) (c : Char) (t : TT)
    (hc : c ∈ ['(', ')', ';']) (ht : (c, t) ∈ punctuation) (rest : List Char) : Lexeme ctx [c] ⟨t, String.ofList [c]⟩ rest := by
  have hm : c ∈ ['(', ')', ';', ' '] := by simp at hc ⊢; tauto
  have h1 := hp c hm
  refine .punct c t rest (noLit_of ?_ ?_ rest) h1.1 ?_ ht
  · exact closed_number (rest := [c]) (fun d hd => by simp at hd; subst hd; exact hm) c rfl
  · simp at hc; rcases hc with rfl | rfl | rfl <;> decide
  · rintro (h | h)
    · simp at hc; rcases hc with rfl | rfl | rfl <;> simp at h
    · rw [h1.2] at h; cases h

theorem lex_vector (ctx : ScanCtx) (env : TextEnv V O) (hn : env.print '\n' = false) (pp : Int) (hp : pp < 0)
    (hb : ctx.symbol ' ' = none ∧ ctx.letter ' ' = false) (rest : List Char) (us : List Token) (hr : Closed rest)
    (hu : Lexes ctx rest us) : (xs : List (UItem V O)) → (∀ x ∈ xs, ScalarText env pp x) →
    Lexes ctx (joinText [' '] (xs.map (itemText env pp)) ++ rest) (xs.map (scalarTok env pp) ++ us)
  | [], _ => hu
  | [x], h => by
    simp only [List.map_cons, List.map_nil, joinText]
    exact .token _ _ _ _ (lex_scalar ctx env hn pp hp x (h x (by simp)) rest (closed_number hr)) hu
  | x :: y :: xs, h => by
    simp only [List.map_cons, joinText, List.append_assoc, List.cons_append, List.nil_append]
    have ih := lex_vector ctx env hn pp hp hb rest us hr hu (y :: xs) (fun z hz => h z (by simp [hz]))
    simp only [List.map_cons, List.cons_append] at ih
    refine .token _ _ _ _ (lex_scalar ctx env hn pp hp x (h x (by simp)) _ (closed_number ?_)) (.blank ' ' _ _ (by simp) hb.1 ?_ ih)
    · intro c hc; simp at hc; subst hc; simp
    · rintro (h | h)
      · simp at h
      · rw [hb.2] at h; cases h

theorem lex_lval (ctx : ScanCtx) (env : TextEnv V O) (hn : env.print '\n' = false) (pp : Int) (hp : pp < 0) (h2 : pp ≠ -2) (h3 : pp ≠ -3)
    (hc : ∀ c ∈ ['(', ')', ';', ' '], ctx.symbol c = none ∧ ctx.letter c = false) (v : LVal V O) :
    (v ≠ .empty → Typable env pp v) → ∀ t, lvalText env pp v = .ok t → ∀ rest us, Closed rest → Lexes ctx rest us →
      Lexes ctx (t ++ rest) (lvalToks env pp v ++ us) := by
  induction v using LVal.ind with
  | hi x =>
    intro h t ht rest us hr hu
    rw [lvalText] at ht; cases ht
    cases h (by simp) with
    | item _ hx => exact .token _ _ _ _ (lex_scalar ctx env hn pp hp x hx rest (closed_number hr)) hu
  | he =>
    intro _ t ht rest us hr hu
    rw [lvalText] at ht; cases ht
    exact hu
  | ha ds xs =>
    intro h t ht rest us hr hu
    rw [lvalText, arrayText, if_neg h2, if_neg h3] at ht; cases ht
    cases h (by simp) with
    | vector _ hl hx =>
      exact lex_vector ctx env hn pp hp (hc ' ' (by simp)) rest us hr hu xs hx
  | hl xs ih =>
    intro h t ht rest us hr hu
    cases h (by simp) with
    | list _ hne hx =>
      rw [lvalText] at ht
      cases e : lvalTexts env pp xs with
      | error x => rw [e] at ht; simp [bind, Except.bind] at ht
      | ok ts =>
        rw [e] at ht
        simp only [bind, Except.bind, pure, Except.pure, if_neg h2] at ht
        cases ht
        have hin : ∀ rest us, Lexes ctx rest us → Lexes ctx (ts.flatMap (fun t => t ++ [';']) ++ rest) (listToks env pp xs ++ us) := by
          clear hne hu hr h
          induction xs generalizing ts with
          | nil =>
            rw [lvalTexts] at e; cases e
            intro rest us hu; exact hu
          | cons x xs ihx =>
            intro rest us hu
            rw [lvalTexts] at e
            cases e1 : lvalText env pp x with
            | error y => rw [e1] at e; simp [bind, Except.bind] at e
            | ok t =>
              cases e2 : lvalTexts env pp xs with
              | error y => rw [e1, e2] at e; simp [bind, Except.bind] at e
              | ok ts' =>
                rw [e1, e2] at e
                simp only [bind, Except.bind, pure, Except.pure] at e
                cases e
                have h5 := ihx (fun y hy => ih y (by simp [hy])) (fun y hy => hx y (by simp [hy])) ts' e2 rest us hu
                simp only [List.flatMap_cons, listToks, List.append_assoc, List.cons_append, List.nil_append]
                refine ih x (by simp) (hx x (by simp)) t e1 _ _ ?_ ?_
                · intro c hc; simp at hc; subst hc; simp
                · exact .token [';'] _ _ _ (lex_close ctx hc ';' .semicolon (by simp) (by simp [punctuation]) _) h5
        rw [lvalToks]
        have := hin (')' :: rest) (tRP :: us) (.token [')'] _ _ _ (lex_close ctx hc ')' .rightParen (by simp) (by simp [punctuation]) _) hu)
        simp only [List.cons_append, List.append_assoc, List.nil_append]
        exact .token ['('] _ _ _ (lex_close ctx hc '(' .leftParen (by simp) (by simp [punctuation]) _) this

/-! ### The parser -/

theorem statement_atom {ctx : PCtx D} {m : Nat} {ts : List Token} {e : Expr D} (h : Atom ctx (Statement ctx m) ts ⟨e, .noun⟩) (hj : ts ≠ [tJot]) :
    Statement ctx (m + 1) ts ⟨e, .noun⟩ := by
  have := Phrase.value (ctx := ctx) (Q := Statement ctx m) [(ts, ⟨e, .noun⟩)] [⟨e, false, []⟩] e
    (.all (by intro p hp; simp at hp; subst hp; exact .atom _ _ h)) (fun _ he => absurd he hj) rfl (by simp [Parsable, Chained]) rfl
  simp only [List.map_cons, List.map_nil, List.flatten_cons, List.flatten_nil, List.append_nil] at this
  exact this

theorem elem_scalar {w : World D H} {env : TextEnv V O} {val : LVal V O → D} (hw : BuildsLists w env val) (pp : Int) (x : UItem V O)
    (hx : ScalarText env pp x) : Elem w.pctx (scalarTok env pp x) (.lit (val (.item x))) := by
  cases x with
  | str s => rw [← hw.str]; exact .string s
  | num x =>
    refine .number _ _ ?_
    rw [hw.number, String.toList_ofList, hx.2.2]
    rfl
  | other ty v => exact absurd hx (by simp [ScalarText])

theorem scalarTok_type (env : TextEnv V O) (pp : Int) (x : UItem V O) : (scalarTok env pp x).t = .string ∨ (scalarTok env pp x).t = .number := by
  cases x <;> simp [scalarTok]

/-- the tokens of values: strings, numbers, parentheses and semicolons -/
def ListTok (t : Token) : Prop := t.t ∈ [.string, .number, .leftParen, .rightParen, .semicolon]

theorem lvalToks_type (env : TextEnv V O) (pp : Int) (v : LVal V O) : ∀ t ∈ lvalToks env pp v, ListTok t := by
  have hs : ∀ x : UItem V O, ListTok (scalarTok env pp x) := by
    intro x; rcases scalarTok_type env pp x with h | h <;> simp [ListTok, h]
  induction v using LVal.ind with
  | hi x => intro t ht; simp [lvalToks] at ht; subst ht; exact hs x
  | he => intro t ht; simp [lvalToks] at ht
  | ha ds xs =>
    intro t ht
    simp only [lvalToks, List.mem_map] at ht
    obtain ⟨x, _, rfl⟩ := ht
    exact hs x
  | hl xs ih =>
    have hin : ∀ t ∈ listToks env pp xs, ListTok t := by
      induction xs with
      | nil => intro t ht; simp [listToks] at ht
      | cons x xs ihx =>
        intro t ht
        simp only [listToks, List.mem_append, List.mem_cons] at ht
        rcases ht with ht | rfl | ht
        · exact ih x (by simp) t ht
        · simp [ListTok]
        · exact ihx (fun y hy => ih y (by simp [hy])) t ht
    intro t ht
    simp only [lvalToks, List.mem_append, List.mem_cons, List.not_mem_nil, or_false] at ht
    rcases ht with rfl | ht | rfl
    · simp [ListTok]
    · exact hin t ht
    · simp [ListTok]

theorem elems_scalars {w : World D H} {env : TextEnv V O} {val : LVal V O → D} (hw : BuildsLists w env val) (pp : Int) :
    (xs : List (UItem V O)) → (∀ x ∈ xs, ScalarText env pp x) →
    Elems w.pctx (xs.map (scalarTok env pp)) (xs.map (fun x => .lit (val (.item x))))
  | [], _ => .nil
  | x :: xs, h => .cons _ _ _ _ (elem_scalar hw pp x (h x (by simp))) (elems_scalars hw pp xs (fun y hy => h y (by simp [hy])))

theorem parse_lval {w : World D H} {env : TextEnv V O} {val : LVal V O → D} (hw : BuildsLists w env val) (pp : Int) (v : LVal V O) :
    Typable env pp v → ∃ n, ∀ m, n ≤ m → Statement w.pctx m (lvalToks env pp v) ⟨lvalExpr val v, .noun⟩ := by
  have hjot : ∀ v : LVal V O, lvalToks env pp v ≠ [tJot] := by
    intro v h
    have := lvalToks_type env pp v tJot (by rw [h]; simp)
    simp [ListTok] at this
  have up : ∀ v : LVal V O, (∃ n, ∀ m, n ≤ m → Atom w.pctx (Statement w.pctx m) (lvalToks env pp v) ⟨lvalExpr val v, .noun⟩) →
      ∃ n, ∀ m, n ≤ m → Statement w.pctx m (lvalToks env pp v) ⟨lvalExpr val v, .noun⟩ := by
    rintro v ⟨n, h⟩
    refine ⟨n + 1, fun m hm => ?_⟩
    obtain ⟨k, rfl⟩ : ∃ k, m = k + 1 := ⟨m - 1, by omega⟩
    exact statement_atom (h k (by omega)) (hjot v)
  induction v using LVal.ind with
  | hi x =>
    intro h
    cases h with
    | item _ hx => exact up _ ⟨0, fun m _ => .strand _ _ (.one _ _ (elem_scalar hw pp x hx))⟩
  | he => intro h; cases h
  | ha ds xs =>
    intro h
    cases h with
    | vector _ hl hx => exact up _ ⟨0, fun m _ => .strand _ _ (.many _ _ (by simpa [lvalToks] using hl) (elems_scalars hw pp xs hx))⟩
  | hl xs ih =>
    intro h
    cases h with
    | list _ hne hx =>
      have hin : ∃ n, ∀ m, n ≤ m → ListElems w.pctx (Statement w.pctx m) (listToks env pp xs) (lvalExprs val xs) := by
        clear hne
        induction xs with
        | nil => exact ⟨0, fun _ _ => .nil⟩
        | cons x xs ihx =>
          obtain ⟨n, h1⟩ := ihx (fun y hy => ih y (by simp [hy])) (fun y hy => hx y (by simp [hy]))
          have h2 : ∃ k, ∀ m, k ≤ m → Slot w.pctx (Statement w.pctx m) (lvalToks env pp x) (lvalExpr val x) := by
            by_cases he : x = .empty
            · subst he
              refine ⟨0, fun m _ => ?_⟩
              simp only [lvalToks, lvalExpr, ← hw.empty]
              exact .none
            · obtain ⟨k, h2⟩ := ih x (by simp) (hx x (by simp) he)
              exact ⟨k, fun m hm => .some _ _ (h2 m hm)⟩
          obtain ⟨k, h2⟩ := h2
          refine ⟨n + k, fun m hm => ?_⟩
          simp only [listToks, lvalExprs]
          refine .cons _ _ _ _ (h2 m (by omega)) (fun t ht he => ?_) (h1 m (by omega))
          have := lvalToks_type env pp x t ht
          simp [ListTok, he] at this
      obtain ⟨n, h1⟩ := hin
      refine up _ ⟨n, fun m hm => .list _ _ ?_ (h1 m hm)⟩
      cases xs with
      | nil => exact absurd rfl hne
      | cons x xs => simp [listToks]

theorem program_lval {w : World D H} {env : TextEnv V O} {val : LVal V O → D} (hw : BuildsLists w env val) (pp : Int) (v : LVal V O)
    (h : Typable env pp v) : parseProgram w.pctx (lvalToks env pp v) = .ok [some (lvalExpr val v)] := by
  have hone : OneStatement (lvalToks env pp v) := by
    have hb : ∀ l : List Token, (∀ t ∈ l, ListTok t) → braceLevel l = 0 := by
      intro l
      induction l with
      | nil => intro _; rfl
      | cons t l ih =>
        intro hl
        have := hl t (by simp)
        rw [braceLevel, ih (fun x hx => hl x (by simp [hx]))]
        simp only [ListTok, List.mem_cons, List.not_mem_nil, or_false] at this
        rcases this with e | e | e | e | e <;> simp [e]
    refine ⟨fun p q e => ?_, fun p d q e hd => ?_⟩
    · rw [hb p (fun t ht => lvalToks_type env pp v t (by rw [e]; simp [ht]))]
    · have := lvalToks_type env pp v d (by rw [e]; simp)
      simp [ListTok, hd] at this
  have hne : lvalToks env pp v ≠ [] := by
    cases h with
    | item => simp [lvalToks]
    | vector xs hl => intro e; simp [lvalToks] at e; subst e; simp at hl
    | list => simp [lvalToks]
  obtain ⟨n, hs⟩ := parse_lval hw pp v h
  rw [C47_statements w.pctx _ _ (.last _ hne hone) (by simp)]
  simp only [List.mapM_cons, List.mapM_nil, parseOne, C46_long_right_scope w.pctx n _ _ (hs n (Nat.le_refl _))]
  rfl

/-! ### The evaluation -/

theorem evalScalars_all (sys : Sys D H) (val : LVal V O → D) (hsc : ∀ x, sys.isScalar (val (.item x)) = true) (n : Nat) (xs : List (UItem V O))
    (s : St D H) : evalScalars sys (run sys (n + 1)) (xs.map (fun x => .lit (val (.item x)))) s = some (.ok (xs.map (fun x => .data (val (.item x)))), s) := by
  induction xs with
  | nil => rfl
  | cons x xs ih =>
    simp only [List.map_cons, evalScalars, em_bind]
    have : run sys (n + 1) (.eval (.lit (val (.item x)))) s = some (.ok (.data (val (.item x))), s) := rfl
    rw [this]
    simp only
    refine (congrFun (if_pos (hsc x)) s).trans ?_
    rw [em_bind, ih]
    rfl

theorem eval_lval {w : World D H} {env : TextEnv V O} {val : LVal V O → D} (hw : BuildsLists w env val) (pp : Int) (v : LVal V O) :
    (v ≠ .empty → Typable env pp v) → ∃ n, ∀ m, n ≤ m → ∀ sys : Sys D H, sys.isScalar = w.sys.isScalar → sys.strand = w.sys.strand →
      sys.list = w.sys.list → ∀ s, run sys m (.eval (lvalExpr val v)) s = some (.ok (.data (val v)), s) := by
  have lit : ∀ d : D, ∃ n, ∀ m, n ≤ m → ∀ sys : Sys D H, sys.isScalar = w.sys.isScalar → sys.strand = w.sys.strand →
      sys.list = w.sys.list → ∀ s, run sys m (.eval (.lit d)) s = some (.ok (.data d), s) := by
    intro d
    refine ⟨1, fun m hm sys _ _ _ s => ?_⟩
    obtain ⟨k, rfl⟩ : ∃ k, m = k + 1 := ⟨m - 1, by omega⟩
    rfl
  induction v using LVal.ind with
  | hi x => intro _; exact lit _
  | he => intro _; exact lit _
  | ha ds xs =>
    intro h
    cases h (by simp) with
    | vector _ hl hx =>
      refine ⟨2, fun m hm sys h1 h2 _ s => ?_⟩
      obtain ⟨k, rfl⟩ : ∃ k, m = k + 2 := ⟨m - 2, by omega⟩
      match xs, hl with
      | x :: y :: xs, hl =>
        show ((do
          let vs ← evalScalars sys (run sys (k + 1)) ((x :: y :: xs).map (fun x => .lit (val (.item x))))
          runAct (run sys (k + 1)) (sys.strand vs)) : EM D H (IVal D)) s = _
        rw [em_bind, evalScalars_all sys val (by rw [h1]; exact hw.isScalar)]
        simp only
        rw [h2, hw.strand _ hl]
        rfl
  | hl xs ih =>
    intro h
    cases h (by simp) with
    | list _ hne hx =>
      have hin : ∃ n, ∀ m, n ≤ m → ∀ sys : Sys D H, sys.isScalar = w.sys.isScalar → sys.strand = w.sys.strand →
          sys.list = w.sys.list → ∀ s, evalAll (run sys m) (lvalExprs val xs) s = some (.ok (xs.map (fun x => .data (val x))), s) := by
        clear hne h
        induction xs with
        | nil => exact ⟨0, fun _ _ _ _ _ _ _ => rfl⟩
        | cons x xs ihx =>
          obtain ⟨n, e1⟩ := ihx (fun y hy => ih y (by simp [hy])) (fun y hy => hx y (by simp [hy]))
          obtain ⟨k, e2⟩ := ih x (by simp) (hx x (by simp))
          refine ⟨n + k, fun m hm sys h1 h2 h3 s => ?_⟩
          simp only [lvalExprs, evalAll, em_bind]
          rw [e2 m (by omega) sys h1 h2 h3 s]
          simp only
          rw [e1 m (by omega) sys h1 h2 h3 s]
          rfl
      obtain ⟨n, e⟩ := hin
      refine ⟨n + 1, fun m hm sys h1 h2 h3 s => ?_⟩
      obtain ⟨k, rfl⟩ : ∃ k, m = k + 1 := ⟨m - 1, by omega⟩
      show ((do
        let vs ← evalAll (run sys k) (lvalExprs val xs)
        runAct (run sys k) (sys.list vs)) : EM D H (IVal D)) s = _
      rw [em_bind, e k (by omega) sys h1 h2 h3 s]
      simp only
      rw [h3, hw.list]
      rfl

/-! ### C97 -/

/-- **C97.** The text of a value that can be typed in, at a negative PP other than ¯2 and ¯3: typing it in writes the value again and changes
nothing else. -/
theorem C97_typed_in {w : World D H} {env : TextEnv V O} {val : LVal V O → D} (hw : BuildsLists w env val) (hn : env.print '\n' = false)
    (pp : Int) (hp : pp < 0) (h2 : pp ≠ -2) (h3 : pp ≠ -3) (v : LVal V O) (hv : Typable env pp v) :
    ∃ t, lvalText env pp v = .ok t ∧ ∃ n, ∀ m, n ≤ m → ∀ i : Machine D H,
      evalLine w m t i = some (.ok (), ⟨{ i.st with out := i.st.out ++ [.data (val v)] }, i.pkgs⟩) := by
  obtain ⟨t, ht⟩ := lvalText_ok env pp h2 h3 v
  refine ⟨t, ht, ?_⟩
  have hl := lex_lval w.ctx env hn pp hp h2 h3 hw.plain v (fun _ => hv) t ht [] [] (by intro c hc; cases hc) .done
  rw [List.append_nil, List.append_nil] at hl
  have hs : scanLine w.ctx t = .ok (lvalToks env pp v) := by
    rw [C49_scan]
    refine ⟨_, hl, .plain _ (fun t0 t1 rest e h _ _ => ?_)⟩
    have := lvalToks_type env pp v t0 (by rw [e]; simp)
    simp [ListTok, h] at this
  have hpr := program_lval hw pp v hv
  have hna : isAssignment (lvalExpr val v) = false := by
    cases v <;> simp [lvalExpr, isAssignment]
  obtain ⟨n, he⟩ := eval_lval hw pp v (fun _ => hv)
  refine ⟨n, fun m hm i => ?_⟩
  have he := he m hm (i.sys w) rfl rfl rfl i.st
  simp only [evalLine, hs, hpr, evalOrLoad, hw.load, evalMachine, evalWrite, em_bind, evalStmt, he, writeStmt, isAssignment?, hna]
  rfl

/-- **C97.** Two values that can be typed in and have the same text are the same value. -/
theorem C97_distinct {w : World D H} {env : TextEnv V O} {val : LVal V O → D} (hw : BuildsLists w env val) (hn : env.print '\n' = false)
    (h : H) (pp : Int) (hp : pp < 0) (h2 : pp ≠ -2) (h3 : pp ≠ -3) (v u : LVal V O) (hv : Typable env pp v) (hu : Typable env pp u)
    (he : lvalText env pp v = lvalText env pp u) : val v = val u := by
  obtain ⟨t, e1, n, e2⟩ := C97_typed_in hw hn pp hp h2 h3 v hv
  obtain ⟨t', e3, k, e4⟩ := C97_typed_in hw hn pp hp h2 h3 u hu
  rw [e1, e3] at he; cases he
  have a := e2 (n + k) (by omega) ⟨St.init h, []⟩
  rw [e4 (n + k) (by omega)] at a
  simpa using a.symm

/-- **C97.** All 64 bit integers (those that are not negative if they are displayed as octal or hexadecimal numbers) and all truth values
have such texts. -/
theorem C97_numbers (env : TextEnv V O) (pp : Int) (hp : pp < 0) :
    (∀ i, I64 i → (pp = -8 ∨ pp = -16 → 0 ≤ i) → NumberText env pp (.int i)) ∧ ∀ b, NumberText env pp (.bool b) := by
  constructor
  · intro i hi h
    by_cases h8 : pp = -8 ∨ pp = -16
    · have hr := C71_round_trip env pp i hi h
      have h0 := h h8
      have hd : ∀ up base, 2 ≤ base → base ≤ 16 → ∀ c ∈ signText up base i, InNumber c := by
        intro up base hb hb' c hc
        rw [signText, if_neg (by omega)] at hc
        exact natText_number up base hb hb' _ c hc
      have hx : ∀ c : Char, c = '0' ∨ c = 'x' → InNumber c := by
        rintro c (rfl | rfl) <;> (unfold InNumber Digit; decide)
      have hno : ∀ up base, 2 ≤ base → base ≤ 16 → ∀ c ∈ signText up base i, ¬ c = '-' := by
        rintro up base hb hb' c hc rfl
        exact absurd (hd up base hb hb' '-' hc) (by unfold InNumber Digit; decide)
      have e : ∃ cs, intText pp i = '0' :: cs ∧ ∀ c ∈ cs, InNumber c := by
        rcases h8 with rfl | rfl
        · refine ⟨signText false 8 i, ?_, hd _ _ (by decide) (by decide)⟩
          rw [intText, if_pos rfl, highMinus_none]
          simpa using hno false 8 (by decide) (by decide)
        · refine ⟨'x' :: signText true 16 i, ?_, ?_⟩
          · rw [intText, if_neg (by decide), if_pos rfl, highMinus_none]
            simpa using hno true 16 (by decide) (by decide)
          · intro c hc
            rcases List.mem_cons.1 hc with rfl | hc
            · exact hx _ (.inr rfl)
            · exact hd true 16 (by decide) (by decide) c hc
      obtain ⟨cs, e, hcs⟩ := e
      refine ⟨?_, ?_, hr⟩
      · rw [itemText, e]; exact .inl (by unfold Digit; decide)
      · rw [itemText, e]
        intro c hc
        rcases List.mem_cons.1 hc with rfl | hc
        · exact hx _ (.inl rfl)
        · exact hcs c hc
    · obtain ⟨h1, h2, h3⟩ := intText_number pp (by omega) i
      exact ⟨h3, h2, C71_round_trip env pp i hi h⟩
  · intro b
    cases b
    · have e : itemText env pp (.num (.bool false)) = ['0', 'b'] := by simp [itemText, boolText, hp]
      rw [NumberText, e]
      refine ⟨.inl (by unfold Digit; decide), ?_, by simp [parseNumber]⟩
      intro c hc; simp at hc; rcases hc with rfl | rfl <;> (unfold InNumber Digit; decide)
    · have e : itemText env pp (.num (.bool true)) = ['1', 'b'] := by simp [itemText, boolText, hp]
      rw [NumberText, e]
      refine ⟨.inl (by unfold Digit; decide), ?_, by simp [parseNumber]⟩
      intro c hc; simp at hc; rcases hc with rfl | rfl <;> (unfold InNumber Digit; decide)

/-- **C97.** A vector with one element has the text of its element, so that the element is read instead; the text of the empty list
is no expression. -/
theorem C97_exceptions {w : World D H} {env : TextEnv V O} {val : LVal V O → D} (hw : BuildsLists w env val)
    (pp : Int) (h2 : pp ≠ -2) (h3 : pp ≠ -3) :
    (∀ x, lvalText env pp (.arr [1] [x]) = lvalText env pp (.item x)) ∧
    lvalText env pp (.list []) = .ok ['(', ')'] ∧ ∀ n i, evalLine w n ['(', ')'] i = some (.error .err, i) := by
  refine ⟨fun x => ?_, ?_, fun n i => ?_⟩
  · simp only [lvalText, arrayText, if_neg h2, if_neg h3]; rfl
  · simp [lvalText, lvalTexts, bind, Except.bind, pure, Except.pure, h2]
  · have hl : Lexes w.ctx ['(', ')'] [tLP, tRP] :=
      .token ['('] _ _ _ (lex_close w.ctx hw.plain '(' .leftParen (by simp) (by simp [punctuation]) _)
        (.token [')'] _ [] _ (lex_close w.ctx hw.plain ')' .rightParen (by simp) (by simp [punctuation]) _) .done)
    have hs : scanLine w.ctx ['(', ')'] = .ok [tLP, tRP] := by
      rw [C49_scan]
      exact ⟨_, hl, .plain _ (fun t0 t1 rest e h _ _ => by cases e; cases h)⟩
    have hp : parseProgram w.pctx [tLP, tRP] = .error .err := rfl
    simp only [evalLine, hs, hp]

/-! Example -/

namespace ListDemo

def env : TextEnv Unit Unit := ⟨fun c => decide (32 ≤ c.toNat ∧ c.toNat ≠ 127), fun c => c == ' ', fun _ _ _ => [], fun _ _ => none, 0, fun _ _ _ => []⟩

/-- the elements of a vector -/
def itemOf : IVal (LVal Unit Unit) → Option (UItem Unit Unit)
  | .data (.item x) => some x
  | _ => none

/-- the elements of a list -/
def dataOf : IVal (LVal Unit Unit) → Option (LVal Unit Unit)
  | .data x => some x
  | _ => none

/-- an interpreter without functions: numbers, strings, vectors and lists -/
def world : World (LVal Unit Unit) Unit where
  sys := {
    letter := Char.isAlpha
    number := Char.isDigit
    upper := Char.isUpper
    toBool := fun _ => none
    isScalar := fun v => match v with
      | .item _ => true
      | _ => false
    ofInt := fun i => .item (.num (.int i))
    empty := .empty
    strand := fun vs => match vs.mapM itemOf with
      | some xs => .ret (.ok (.data (.arr [xs.length] xs)))
      | none => .ret (.error .err)
    list := fun vs => match vs.mapM dataOf with
      | some xs => .ret (.ok (.data (.list xs)))
      | none => .ret (.error .err)
    spec := fun _ => .ret (.error .err)
    copy := fun v => .ret (.ok v)
    prims := fun _ => none
    ops := fun _ => []
    native := fun _ _ _ => .ret (.error .err)
    pkgVar := fun _ => none
    setPP := fun _ => none
    setIdx := fun _ _ _ _ => .ret (.error .err)
    elems := fun _ => .ret (.error .err) }
  ctx := ⟨fun _ => none, Char.isAlpha, Char.isDigit, fun c => c == ' ', fun _ => none⟩
  pctx := {
    prim := fun _ => false
    op := fun _ => none
    varname := fun _ => none
    number := fun s => (parseNumber env s.toList).map (fun x => .item (.num x))
    str := fun s => .item (.str s)
    empty := .empty }
  lower := fun _ => false
  load := fun _ => none
  files := fun _ => none

theorem itemOf_all : (xs : List (UItem Unit Unit)) → (xs.map (fun x => (.data (id (.item x)) : IVal (LVal Unit Unit)))).mapM itemOf = some xs
  | [] => rfl
  | x :: xs => by
    rw [List.map_cons, List.mapM_cons, itemOf_all xs]
    rfl

theorem dataOf_all : (xs : List (LVal Unit Unit)) → (xs.map (fun x => (.data (id x) : IVal (LVal Unit Unit)))).mapM dataOf = some xs
  | [] => rfl
  | x :: xs => by
    rw [List.map_cons, List.mapM_cons, dataOf_all xs]
    rfl

theorem world_builds : BuildsLists world env id where
  number _ := rfl
  str _ := rfl
  empty := rfl
  isScalar _ := rfl
  strand xs _ := by
    show (match (xs.map (fun x => (.data (id (.item x)) : IVal (LVal Unit Unit)))).mapM itemOf with
      | some xs => _
      | none => _) = _
    rw [itemOf_all]
    rfl
  list xs := by
    show (match (xs.map (fun x => (.data (id x) : IVal (LVal Unit Unit)))).mapM dataOf with
      | some xs => _
      | none => _) = _
    rw [dataOf_all]
    rfl
  plain c hc := by
    simp only [List.mem_cons, List.not_mem_nil, or_false] at hc
    rcases hc with rfl | rfl | rfl | rfl <;> exact ⟨rfl, rfl⟩
  load _ := rfl

/-- `(1;"a\n" "b";(¯2;;);)` -/
def value : LVal Unit Unit := .list [.item (.num (.int 1)), .arr [2] [.str "a\n", .str "b"], .list [.item (.num (.int (-2))), .empty]]

example : lvalText env (-1) value = .ok "(1;\"a\\n\" \"b\";(¯2;;);)".toList := rfl

theorem value_typable : Typable env (-1) value := by
  have hnum := (C97_numbers env (-1) (by decide)).1
  refine .list _ (by simp) ?_
  simp only [List.mem_cons, List.not_mem_nil, or_false, forall_eq_or_imp, forall_eq]
  refine ⟨fun _ => .item _ (hnum 1 (by unfold I64; decide) (by simp)), fun _ => .vector [.str "a\n", .str "b"] (by simp) (by simp [ScalarText]), fun _ => .list _ (by simp) ?_⟩
  simp only [List.mem_cons, List.not_mem_nil, or_false, forall_eq_or_imp, forall_eq]
  exact ⟨fun _ => .item _ (hnum (-2) (by unfold I64; decide) (by simp)), fun h => absurd rfl h⟩

/-- the text of the value, typed in -/
example : ∃ n, evalLine world n "(1;\"a\\n\" \"b\";(¯2;;);)".toList ⟨St.init (), []⟩ = some (.ok (), ⟨{ St.init () with out := [.data value] }, []⟩) := by
  obtain ⟨t, e1, n, e2⟩ := C97_typed_in world_builds rfl (-1) (by decide) (by decide) (by decide) value value_typable
  cases e1
  exact ⟨n, e2 n (Nat.le_refl _) _⟩

end ListDemo

end Iv

import Verif.Lemmas.CalcEval
import Verif.Props.Parse
/-
C92: the tokens of the programs of the specification are parsed to their expressions.
-/
namespace Iv
variable {V O H : Type}

/-- The parser knows the symbols of the specification, and reads numbers with 64 bits. -/
structure CalcCtx (ctx : PCtx (AVal V O)) (v f : String → Prop) : Prop where
  prim : ∀ p : Calc.Prim, ctx.prim (String.ofList [p.char]) = true
  mop : ∀ s ∈ ["/", "\\", "⍨", "¨", "←"], ctx.prim s = false ∧ ctx.op s = some false
  number : ∀ n : Int, -2 ^ 63 ≤ n → n < 2 ^ 63 → ctx.number (String.ofList (Calc.showInt n)) = some (numVal n)
  vname : ∀ x, v x → ctx.varname x = some false
  fname : ∀ x, f x → ctx.varname x = some true

/-! ### The pieces and the words of a term -/

abbrev CPiece (V O : Type) := List Token × Item (AVal V O)

def Calc.Op.sym : Calc.Op → Option String
  | .plain => none
  | .reduce => some "/"
  | .scan => some "\\"
  | .swap => some "⍨"
  | .each => some "¨"

def symPiece (s : String) : CPiece V O := ([⟨.symbol, s⟩], ⟨.fn (.der s none none), .adverb⟩)

def Calc.Op.pieces (o : Calc.Op) : List (CPiece V O) := o.sym.toList.map symPiece

def Calc.Op.uses (o : Calc.Op) : List (OpUse (AVal V O)) := o.sym.toList.map OpUse.mop

def Calc.Fn.piece (f : Calc.Fn) : CPiece V O := (f.toks, ⟨.fn f.func, .verb⟩)

def Calc.Tm.argToks (l : Calc.Tm) : List Token := if l.atomic then l.toks else tLP :: l.toks ++ [tRP]

def Calc.Tm.piece (l : Calc.Tm) : CPiece V O := (l.argToks, ⟨l.expr, .noun⟩)

def Calc.Tm.pieces : Calc.Tm → List (CPiece V O)
  | .num n ns => [((Calc.Tm.num n ns).toks, ⟨(Calc.Tm.num n ns).expr, .noun⟩)]
  | .var x => [((Calc.Tm.var x).toks, ⟨(Calc.Tm.var x).expr, .noun⟩)]
  | .mon f o r => f.piece :: (o.pieces ++ r.pieces)
  | .dya l f o r => l.piece :: f.piece :: (o.pieces ++ r.pieces)

def Calc.Tm.words : Calc.Tm → List (Word (AVal V O))
  | .num n ns => [⟨(Calc.Tm.num n ns).expr, false, []⟩]
  | .var x => [⟨(Calc.Tm.var x).expr, false, []⟩]
  | .mon f o r => ⟨.fn f.func, true, o.uses⟩ :: r.words
  | .dya l f o r => ⟨l.expr, false, []⟩ :: ⟨.fn f.func, true, o.uses⟩ :: r.words

theorem op_pieces_toks (o : Calc.Op) : ((o.pieces : List (CPiece V O)).map Prod.fst).flatten = o.toks := by
  cases o <;> rfl

theorem op_pieces_items (o : Calc.Op) : (o.pieces : List (CPiece V O)).map Prod.snd = opsItems o.uses := by
  cases o <;> rfl

theorem pieces_toks : (t : Calc.Tm) → ((t.pieces : List (CPiece V O)).map Prod.fst).flatten = t.toks
  | .num n ns => by simp [Calc.Tm.pieces]
  | .var x => by simp [Calc.Tm.pieces]
  | .mon f o r => by
    have ih := pieces_toks r
    simp only [Calc.Tm.pieces, List.map_cons, List.map_append, List.flatten_cons, List.flatten_append, op_pieces_toks, ih]
    simp [Calc.Fn.piece, Calc.Tm.toks]
  | .dya l f o r => by
    have ih := pieces_toks r
    simp only [Calc.Tm.pieces, List.map_cons, List.map_append, List.flatten_cons, List.flatten_append, op_pieces_toks, ih]
    simp [Calc.Fn.piece, Calc.Tm.piece, Calc.Tm.argToks, Calc.Tm.toks]

theorem pieces_items : (t : Calc.Tm) → (t.pieces : List (CPiece V O)).map Prod.snd = wordsItems t.words
  | .num n ns => rfl
  | .var x => rfl
  | .mon f o r => by
    have ih := pieces_items r
    simp only [Calc.Tm.pieces, List.map_cons, List.map_append, op_pieces_items, ih]
    rfl
  | .dya l f o r => by
    have ih := pieces_items r
    simp only [Calc.Tm.pieces, List.map_cons, List.map_append, op_pieces_items, ih]
    rfl

theorem derive_op (o : Calc.Op) (f : Func (AVal V O)) : derive (.fn f) o.uses = .fn (o.func f) := by
  cases o <;> rfl

theorem scope_calls {w : Word (AVal V O)} {ws : List (Word (AVal V O))} {f : Func (AVal V O)} {r : Expr (AVal V O)} (h : w.verb = true)
    (he : w.e = .fn f) (hs : scope ws = some r) : scope (w :: ws) = some (.app f none r false) := by
  cases ws with
  | nil => simp [scope] at hs
  | cons v vs => rw [scope.eq_def]; simp only [h, if_true, he, hs]

theorem words_scope : (t : Calc.Tm) → scope (t.words : List (Word (AVal V O))) = some t.expr
  | .num n ns => rfl
  | .var x => rfl
  | .mon f o r => by
    have ih := words_scope r
    rw [Calc.Tm.expr]
    exact scope_calls rfl (derive_op o _) ih
  | .dya l f o r => by
    have ih := words_scope r
    simp only [Calc.Tm.words, scope, Word.verb, Bool.true_or, if_true, Word.e, derive_op, ih, List.isEmpty_nil, Bool.not_true,
      Bool.or_false, Bool.false_eq_true, if_false, derive]
    rw [Calc.Tm.expr]

theorem op_uses (o : Calc.Op) : (o.uses : List (OpUse (AVal V O))) = [] ∨ ∃ s, (o.uses : List (OpUse (AVal V O))) = [.mop s] := by
  cases o <;> first | exact .inl rfl | exact .inr ⟨_, rfl⟩

theorem chained_of : (ws : List (Word (AVal V O))) → (∀ w ∈ ws, w.ops = [] ∨ ∃ s, w.ops = [.mop s]) → Chained ws
  | [], _ => trivial
  | w :: ws, h => by
    refine ⟨?_, fun _ u hu => ?_, chained_of ws (fun x hx => h x (by simp [hx]))⟩
    · rcases h w (by simp) with e | ⟨s, e⟩ <;> rw [e] <;> rfl
    · rcases h u (by simp [List.mem_of_mem_head? hu]) with e | ⟨s, e⟩
      · exact .inl e
      · exact .inr (by simp [Word.single, e])

theorem words_ops : (t : Calc.Tm) → ∀ w ∈ (t.words : List (Word (AVal V O))), w.ops = [] ∨ ∃ s, w.ops = [.mop s]
  | .num n ns => by intro w hw; simp [Calc.Tm.words] at hw; subst hw; exact .inl rfl
  | .var x => by intro w hw; simp [Calc.Tm.words] at hw; subst hw; exact .inl rfl
  | .mon f o r => by
    intro w hw
    simp only [Calc.Tm.words, List.mem_cons] at hw
    rcases hw with rfl | hw
    · exact op_uses o
    · exact words_ops r w hw
  | .dya l f o r => by
    intro w hw
    simp only [Calc.Tm.words, List.mem_cons] at hw
    rcases hw with rfl | rfl | hw
    · exact .inl rfl
    · exact op_uses o
    · exact words_ops r w hw

/-! ### Neighbours -/

/-- Two neighbours are apart. -/
def Away (ctx : PCtx (AVal V O)) (p q : CPiece V O) : Prop :=
  ∀ s t, p.1.getLast? = some s → q.1.head? = some t → ¬ (strandTok ctx s = true ∧ strandTok ctx t = true)

theorem adjacent_of (ctx : PCtx (AVal V O)) : (ps : List (CPiece V O)) → (∀ p ∈ ps, p.1 ≠ [tJot]) →
    List.IsChain (Away ctx) ps → Adjacent ctx ps
  | [], _, _ => trivial
  | [p], h, _ => fun _ e => absurd e (h p (by simp))
  | p :: q :: r, h, hc => by
    rw [List.isChain_cons_cons] at hc
    exact ⟨hc.1, fun _ e => absurd e (h p (by simp)), adjacent_of ctx (q :: r) (fun x hx => h x (List.mem_cons_of_mem _ hx)) hc.2⟩

/-- a piece that does not touch values: it begins and ends with other tokens -/
def Solid (ctx : PCtx (AVal V O)) (p : CPiece V O) : Prop :=
  (∀ t, p.1.head? = some t → strandTok ctx t = false) ∧ (∀ t, p.1.getLast? = some t → strandTok ctx t = false)

theorem apart_left {ctx : PCtx (AVal V O)} {p : CPiece V O} (h : Solid ctx p) (q : CPiece V O) : Away ctx p q := by
  intro s t hs _ hb
  rw [h.2 s hs] at hb
  exact absurd hb.1 (by simp)

theorem apart_right {ctx : PCtx (AVal V O)} {q : CPiece V O} (h : Solid ctx q) (p : CPiece V O) : Away ctx p q := by
  intro s t _ ht hb
  rw [h.1 t ht] at hb
  exact absurd hb.2 (by simp)

theorem solid_sym (ctx : PCtx (AVal V O)) (s : String) : Solid ctx (symPiece s) := by
  constructor <;> intro t ht <;> simp [symPiece] at ht <;> subst ht <;> rfl

theorem solid_fn {ctx : PCtx (AVal V O)} {v f : String → Prop} (hc : CalcCtx ctx v f) (g : Calc.Fn) (hg : g.Uses v f) : Solid ctx g.piece := by
  cases g with
  | prim p => constructor <;> intro t ht <;> simp [Calc.Fn.piece, Calc.Fn.toks] at ht <;> subst ht <;> rfl
  | name x =>
    have := hc.fname x hg
    constructor <;> intro t ht <;> simp [Calc.Fn.piece, Calc.Fn.toks, Calc.ident] at ht <;> subst ht <;> simp [strandTok, this]
  | lam b =>
    constructor <;> intro t ht
    · simp [Calc.Fn.piece, Calc.Fn.toks] at ht; subst ht; rfl
    · simp only [Calc.Fn.piece, Calc.Fn.toks] at ht
      rw [List.getLast?_append] at ht
      simp at ht; subst ht; rfl

theorem op_chain {ctx : PCtx (AVal V O)} (o : Calc.Op) (ps : List (CPiece V O)) (h : List.IsChain (Away ctx) ps) :
    List.IsChain (Away ctx) (o.pieces ++ ps) := by
  rw [Calc.Op.pieces]
  cases o.sym with
  | none => exact h
  | some s => exact List.isChain_cons.2 ⟨fun q _ => apart_left (solid_sym ctx s) q, h⟩

theorem pieces_chain {ctx : PCtx (AVal V O)} {v f : String → Prop} (hc : CalcCtx ctx v f) :
    (t : Calc.Tm) → t.Uses v f → List.IsChain (Away ctx) t.pieces
  | .num n ns, _ => by simp [Calc.Tm.pieces]
  | .var x, _ => by simp [Calc.Tm.pieces]
  | .mon g o r, h => by
    obtain ⟨h1, h2⟩ := h
    exact List.isChain_cons.2 ⟨fun q _ => apart_left (solid_fn hc g h1) q, op_chain o _ (pieces_chain hc r h2)⟩
  | .dya l g o r, h => by
    obtain ⟨_, h1, h2⟩ := h
    refine List.isChain_cons_cons.2 ⟨apart_right (solid_fn hc g h1) _, ?_⟩
    exact List.isChain_cons.2 ⟨fun q _ => apart_left (solid_fn hc g h1) q, op_chain o _ (pieces_chain hc r h2)⟩

/-! ### No jot -/

theorem char_not_jot (p : Calc.Prim) : (⟨.symbol, String.ofList [p.char]⟩ : Token) ≠ tJot := by
  cases p <;> decide

theorem fn_not_jot (g : Calc.Fn) : (g.piece : CPiece V O).1 ≠ [tJot] := by
  cases g with
  | prim p => simpa [Calc.Fn.piece, Calc.Fn.toks, Calc.sym] using char_not_jot p
  | name x => simp [Calc.Fn.piece, Calc.Fn.toks, Calc.ident]
  | lam b => simp [Calc.Fn.piece, Calc.Fn.toks]

theorem num_not_jot (n : Int) (ns : List Int) : (Calc.Tm.num n ns).toks ≠ [tJot] := by
  simp [Calc.Tm.toks, Calc.numTok]

theorem arg_not_jot (l : Calc.Tm) : l.argToks ≠ [tJot] := by
  cases l with
  | num n ns => exact num_not_jot n ns
  | var x => simp [Calc.Tm.argToks, Calc.Tm.atomic, Calc.Tm.toks, Calc.ident]
  | mon f o r => simp [Calc.Tm.argToks, Calc.Tm.atomic]
  | dya l f o r => simp [Calc.Tm.argToks, Calc.Tm.atomic]

theorem op_not_jot (o : Calc.Op) : ∀ p ∈ (o.pieces : List (CPiece V O)), p.1 ≠ [tJot] := by
  intro p hp
  cases o <;> simp [Calc.Op.pieces, Calc.Op.sym] at hp <;> subst hp <;> simp [symPiece]

theorem pieces_not_jot : (t : Calc.Tm) → ∀ p ∈ (t.pieces : List (CPiece V O)), p.1 ≠ [tJot]
  | .num n ns => by intro p hp; simp [Calc.Tm.pieces] at hp; subst hp; exact num_not_jot n ns
  | .var x => by intro p hp; simp [Calc.Tm.pieces] at hp; subst hp; simp [Calc.Tm.toks, Calc.ident]
  | .mon f o r => by
    intro p hp
    simp only [Calc.Tm.pieces, List.mem_cons, List.mem_append] at hp
    rcases hp with rfl | hp | hp
    · exact fn_not_jot f
    · exact op_not_jot o p hp
    · exact pieces_not_jot r p hp
  | .dya l f o r => by
    intro p hp
    simp only [Calc.Tm.pieces, List.mem_cons, List.mem_append] at hp
    rcases hp with rfl | rfl | hp | hp
    · exact arg_not_jot l
    · exact fn_not_jot f
    · exact op_not_jot o p hp
    · exact pieces_not_jot r p hp

/-! ### Statements -/

/-- The tokens are a statement with this value, for all depths from some one on. -/
def Deep (ctx : PCtx (AVal V O)) (ts : List Token) (i : Item (AVal V O)) : Prop := ∃ n, ∀ m, n ≤ m → Statement ctx m ts i

/-- all of them are pieces, for all depths from some one on -/
def DeepPieces (ctx : PCtx (AVal V O)) (ps : List (CPiece V O)) : Prop :=
  ∃ n, ∀ m, n ≤ m → ∀ p ∈ ps, Piece ctx (Statement ctx m) p.1 p.2

theorem deep_nil (ctx : PCtx (AVal V O)) : DeepPieces ctx [] := ⟨0, fun _ _ p hp => absurd hp (by simp)⟩

theorem deep_append {ctx : PCtx (AVal V O)} {ps qs : List (CPiece V O)} (h1 : DeepPieces ctx ps) (h2 : DeepPieces ctx qs) :
    DeepPieces ctx (ps ++ qs) := by
  obtain ⟨n, h1⟩ := h1
  obtain ⟨k, h2⟩ := h2
  refine ⟨n + k, fun m hm p hp => ?_⟩
  rcases List.mem_append.1 hp with hp | hp
  · exact h1 m (by omega) p hp
  · exact h2 m (by omega) p hp

theorem deep_one {ctx : PCtx (AVal V O)} {p : CPiece V O} (h : ∃ n, ∀ m, n ≤ m → Atom ctx (Statement ctx m) p.1 p.2) : DeepPieces ctx [p] := by
  obtain ⟨n, h⟩ := h
  refine ⟨n, fun m hm q hq => ?_⟩
  simp at hq; subst hq
  exact .atom _ _ (h m hm)

theorem deep_value {ctx : PCtx (AVal V O)} {ps : List (CPiece V O)} {ws : List (Word (AVal V O))} {e : Expr (AVal V O)} (h : DeepPieces ctx ps)
    (ha : Adjacent ctx ps) (hi : ps.map Prod.snd = wordsItems ws) (hp : Parsable ws) (hs : scope ws = some e) :
    Deep ctx (ps.map Prod.fst).flatten ⟨e, .noun⟩ := by
  obtain ⟨n, h⟩ := h
  refine ⟨n + 1, fun m hm => ?_⟩
  obtain ⟨k, rfl⟩ : ∃ k, m = k + 1 := ⟨m - 1, by omega⟩
  exact .value ps ws e (.all (h k (by omega))) ha hi hp hs

theorem parsable_of {ws : List (Word (AVal V O))} (h : ∀ w ∈ ws, w.ops = [] ∨ ∃ s, w.ops = [.mop s]) : Parsable ws := by
  cases ws with
  | nil => trivial
  | cons w ws => exact chained_of ws (fun x hx => h x (by simp [hx]))

theorem deep_tm {ctx : PCtx (AVal V O)} {v f : String → Prop} (hc : CalcCtx ctx v f) {t : Calc.Tm} (hu : t.Uses v f)
    (h : DeepPieces ctx (t.pieces : List (CPiece V O))) : Deep ctx t.toks ⟨t.expr, .noun⟩ := by
  rw [← pieces_toks (V := V) (O := O)]
  exact deep_value h (adjacent_of ctx _ (pieces_not_jot t) (pieces_chain hc t hu)) (pieces_items t) (parsable_of (words_ops t)) (words_scope t)

/-- the assignment of a term to a variable -/
theorem deep_set {ctx : PCtx (AVal V O)} {v f : String → Prop} (hc : CalcCtx ctx v f) {x : String} (hx : v x) {t : Calc.Tm} (hu : t.Uses v f)
    (h : DeepPieces ctx (t.pieces : List (CPiece V O))) :
    Deep ctx (Calc.ident x :: Calc.sym '←' :: t.toks) ⟨assignExpr x t.expr, .noun⟩ := by
  have e : Calc.ident x :: Calc.sym '←' :: t.toks =
      ((([Calc.ident x], ⟨.var x, .noun⟩) :: symPiece "←" :: t.pieces : List (CPiece V O)).map Prod.fst).flatten := by
    simp [pieces_toks, symPiece]
    rfl
  rw [e]
  refine deep_value (ws := ⟨.var x, false, [.mop "←"]⟩ :: t.words) ?_ ?_ ?_ ?_ ?_
  · refine deep_append (ps := [([Calc.ident x], ⟨.var x, .noun⟩)]) (deep_one ⟨0, fun m _ => ?_⟩)
      (deep_append (ps := [symPiece "←"]) (deep_one ⟨0, fun m _ => ?_⟩) h)
    · exact .strand _ _ (.one _ _ (.var _ (hc.vname x hx)))
    · obtain ⟨h1, h2⟩ := hc.mop "←" (by simp)
      exact .mop _ h1 h2
  · refine adjacent_of ctx _ ?_ ?_
    · intro p hp
      simp only [List.mem_cons] at hp
      rcases hp with rfl | rfl | hp
      · simp [Calc.ident]
      · simp [symPiece]
      · exact pieces_not_jot t p hp
    · exact List.isChain_cons_cons.2 ⟨apart_right (solid_sym ctx "←") _,
        List.isChain_cons.2 ⟨fun q _ => apart_left (solid_sym ctx "←") q, pieces_chain hc t hu⟩⟩
  · simp only [List.map_cons, pieces_items]
    rfl
  · refine parsable_of fun w hw => ?_
    simp only [List.mem_cons] at hw
    rcases hw with rfl | hw
    · exact .inr ⟨_, rfl⟩
    · exact words_ops t w hw
  · exact scope_calls rfl rfl (words_scope t)

/-- the definition of a function -/
theorem deep_def {ctx : PCtx (AVal V O)} {v f : String → Prop} (hc : CalcCtx ctx v f) {x : String} (hx : f x) {b : Calc.Body}
    (hu : b.Uses v f) (h : DeepPieces ctx [((Calc.Fn.lam b).piece : CPiece V O)]) :
    Deep ctx (Calc.ident x :: Calc.sym '←' :: (Calc.Fn.lam b).toks)
      ⟨.app (.der "←" (some (.fn (.fvar x))) none) none (.fn (.lam (some b.guards))) false, .verb⟩ := by
  have e : Calc.ident x :: Calc.sym '←' :: (Calc.Fn.lam b).toks =
      ((([Calc.ident x], ⟨.fn (.fvar x), .verb⟩) :: symPiece "←" :: [(Calc.Fn.lam b).piece] : List (CPiece V O)).map Prod.fst).flatten := by
    simp [symPiece, Calc.Fn.piece]
    rfl
  have hp : DeepPieces ctx (([Calc.ident x], ⟨.fn (.fvar x), .verb⟩) :: symPiece "←" :: [(Calc.Fn.lam b).piece] : List (CPiece V O)) := by
    refine deep_append (ps := [([Calc.ident x], ⟨.fn (.fvar x), .verb⟩)]) (deep_one ⟨0, fun m _ => ?_⟩)
      (deep_append (ps := [symPiece "←"]) (deep_one ⟨0, fun m _ => ?_⟩) h)
    · exact .fvar _ (hc.fname x hx)
    · obtain ⟨h1, h2⟩ := hc.mop "←" (by simp)
      exact .mop _ h1 h2
  rw [e]
  obtain ⟨n, hp⟩ := hp
  refine ⟨n + 1, fun m hm => ?_⟩
  obtain ⟨k, rfl⟩ : ∃ k, m = k + 1 := ⟨m - 1, by omega⟩
  refine .assign _ ⟨.fn (.fvar x), true, [.mop "←"]⟩ ⟨.fn (.lam (some b.guards)), true, []⟩ _ _ (.all (hp k (by omega))) ?_ ?_ rfl rfl rfl rfl rfl
  · refine adjacent_of ctx _ ?_ ?_
    · intro p hp
      simp only [List.mem_cons, List.not_mem_nil, or_false] at hp
      rcases hp with rfl | rfl | rfl
      · simp [Calc.ident]
      · simp [symPiece]
      · exact fn_not_jot _
    · refine List.isChain_cons_cons.2 ⟨apart_right (solid_sym ctx "←") _, List.isChain_cons_cons.2 ⟨apart_left (solid_sym ctx "←") _, ?_⟩⟩
      simp
  · simp [Calc.Fn.piece, Calc.Fn.func, wordsItems, Word.items, opsItems, OpUse.items, symPiece, clsOf]

theorem elem_num {ctx : PCtx (AVal V O)} {v f : String → Prop} (hc : CalcCtx ctx v f) {n : Int} (h : -2 ^ 63 ≤ n ∧ n < 2 ^ 63) :
    Elem ctx (Calc.numTok n) (.lit (numVal n)) := .number _ _ (hc.number n h.1 h.2)

theorem elems_num {ctx : PCtx (AVal V O)} {v f : String → Prop} (hc : CalcCtx ctx v f) : (ns : List Int) →
    (∀ n ∈ ns, -2 ^ 63 ≤ n ∧ n < 2 ^ 63) → Elems ctx (ns.map Calc.numTok) (ns.map (fun k => .lit (numVal k)))
  | [], _ => .nil
  | n :: ns, h => .cons _ _ _ _ (elem_num hc (h n (by simp))) (elems_num hc ns (fun m hm => h m (by simp [hm])))

theorem strand_num {ctx : PCtx (AVal V O)} {v f : String → Prop} (hc : CalcCtx ctx v f) (n : Int) (ns : List Int)
    (h : (Calc.Tm.num n ns).Uses v f) : Strand ctx (Calc.Tm.num n ns).toks (Calc.Tm.num n ns).expr := by
  simp only [Calc.Tm.Uses] at h
  cases ns with
  | nil =>
    simp only [Calc.Tm.toks, Calc.Tm.expr]
    exact .one _ _ (elem_num hc (h n (by simp)))
  | cons m ms =>
    rw [Calc.Tm.toks, Calc.Tm.expr]
    exact .many _ _ (by simp) (elems_num hc (n :: m :: ms) h)

theorem op_deep {ctx : PCtx (AVal V O)} {v f : String → Prop} (hc : CalcCtx ctx v f) (o : Calc.Op) : DeepPieces ctx (o.pieces : List (CPiece V O)) := by
  cases o with
  | plain => exact deep_nil ctx
  | reduce =>
    refine deep_one ⟨0, fun m _ => ?_⟩
    obtain ⟨h1, h2⟩ := hc.mop "/" (by simp)
    exact .mop _ h1 h2
  | scan =>
    refine deep_one ⟨0, fun m _ => ?_⟩
    obtain ⟨h1, h2⟩ := hc.mop "\\" (by simp)
    exact .mop _ h1 h2
  | swap =>
    refine deep_one ⟨0, fun m _ => ?_⟩
    obtain ⟨h1, h2⟩ := hc.mop "⍨" (by simp)
    exact .mop _ h1 h2
  | each =>
    refine deep_one ⟨0, fun m _ => ?_⟩
    obtain ⟨h1, h2⟩ := hc.mop "¨" (by simp)
    exact .mop _ h1 h2

mutual
theorem tm_deep {ctx : PCtx (AVal V O)} {v f : String → Prop} (hc : CalcCtx ctx v f) : (t : Calc.Tm) → t.Uses v f →
    DeepPieces ctx (t.pieces : List (CPiece V O))
  | .num n ns, h => deep_one ⟨0, fun _ _ => .strand _ _ (strand_num hc n ns h)⟩
  | .var x, h => deep_one ⟨0, fun _ _ => .strand _ _ (by
      rw [Calc.Tm.toks, Calc.Tm.expr]
      exact .one _ _ (.var _ (hc.vname x h)))⟩
  | .mon g o r, h => deep_append (fn_deep hc g h.1) (deep_append (op_deep hc o) (tm_deep hc r h.2))
  | .dya l g o r, h => by
    have h1 : DeepPieces ctx [(l.piece : CPiece V O)] := by
      have hl := tm_deep hc l h.1
      have hs := deep_tm hc h.1 hl
      cases l with
      | num n ns => exact deep_one ⟨0, fun _ _ => .strand _ _ (strand_num hc n ns h.1)⟩
      | var x => exact hl
      | mon g' o' r' =>
        obtain ⟨n, hs⟩ := hs
        exact deep_one ⟨n, fun m hm => .paren _ _ (hs m hm)⟩
      | dya l' g' o' r' =>
        obtain ⟨n, hs⟩ := hs
        exact deep_one ⟨n, fun m hm => .paren _ _ (hs m hm)⟩
    exact deep_append h1 (deep_append (fn_deep hc g h.2.1) (deep_append (op_deep hc o) (tm_deep hc r h.2.2)))

theorem fn_deep {ctx : PCtx (AVal V O)} {v f : String → Prop} (hc : CalcCtx ctx v f) : (g : Calc.Fn) → g.Uses v f →
    DeepPieces ctx [(g.piece : CPiece V O)]
  | .prim p, _ => deep_one ⟨0, fun _ _ => by
      simp only [Calc.Fn.piece, Calc.Fn.toks, Calc.Fn.func]
      exact .prim _ (hc.prim p)⟩
  | .name x, h => deep_one ⟨0, fun _ _ => by
      simp only [Calc.Fn.piece, Calc.Fn.toks, Calc.Fn.func]
      exact .fvar _ (hc.fname x h)⟩
  | .lam b, h => by
    obtain ⟨n, hb⟩ := body_deep hc b h
    refine deep_one ⟨n, fun m hm => ?_⟩
    simp only [Calc.Fn.piece, Calc.Fn.toks, Calc.Fn.func]
    exact .lambda _ _ (hb m hm)

theorem body_deep {ctx : PCtx (AVal V O)} {v f : String → Prop} (hc : CalcCtx ctx v f) : (b : Calc.Body) → b.Uses v f →
    ∃ n, ∀ m, n ≤ m → Body (Statement ctx m) b.toks (b.guards : List (Guard (AVal V O)))
  | .ret t, h => by
    obtain ⟨n, ht⟩ := deep_tm hc h (tm_deep hc t h)
    refine ⟨n, fun m hm => ?_⟩
    rw [Calc.Body.toks, Calc.Body.guards]
    exact .one _ _ (.plain _ _ (ht m hm))
  | .set x t b, h => by
    obtain ⟨n, ht⟩ := deep_set hc h.1 h.2.2.1 (tm_deep hc t h.2.2.1)
    obtain ⟨k, hb⟩ := body_deep hc b h.2.2.2
    refine ⟨n + k, fun m hm => ?_⟩
    rw [Calc.Body.toks, Calc.Body.guards]
    exact .cons _ _ _ _ (.plain _ _ (ht m (by omega))) (hb m (by omega))
  | .guard c t b, h => by
    obtain ⟨j, hc'⟩ := deep_tm hc h.1 (tm_deep hc c h.1)
    obtain ⟨n, ht⟩ := deep_tm hc h.2.1 (tm_deep hc t h.2.1)
    obtain ⟨k, hb⟩ := body_deep hc b h.2.2
    refine ⟨j + n + k, fun m hm => ?_⟩
    rw [Calc.Body.toks, Calc.Body.guards]
    exact .cons _ _ _ _ (.cond _ _ _ _ (hc' m (by omega)) (ht m (by omega))) (hb m (by omega))
end

/-- the expression of a statement -/
def Calc.Stmt.expr : Calc.Stmt → Expr (AVal V O)
  | .shw t => t.expr
  | .set x t => assignExpr x t.expr
  | .fn f b => .app (.der "←" (some (.fn (.fvar f))) none) none (.fn (.lam (some b.guards))) false

theorem stmt_parse {ctx : PCtx (AVal V O)} {v f : String → Prop} (hc : CalcCtx ctx v f) (s : Calc.Stmt) (h : s.Uses v f) :
    parseOne ctx s.toks = .ok (some (s.expr : Expr (AVal V O))) := by
  have : ∃ c, Deep ctx s.toks ⟨s.expr, c⟩ := by
    cases s with
    | shw t => exact ⟨_, deep_tm hc h (tm_deep hc t h)⟩
    | set x t => exact ⟨_, deep_set hc h.1 h.2.2 (tm_deep hc t h.2.2)⟩
    | fn g b => exact ⟨_, deep_def hc h.1 h.2 (fn_deep hc (.lam b) h.2)⟩
  obtain ⟨c, n, hs⟩ := this
  rw [parseOne, C46_long_right_scope ctx n _ _ (hs n (Nat.le_refl _))]
  rfl

end Iv

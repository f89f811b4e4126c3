import Verif.Lemmas.CalcScan
import Verif.Props.FormatStream
import Mathlib.Tactic.Positivity
/-
C92: from the text of a program to the text of its results: scanner, parser, interpreter, primitive functions, operators and formatting together.
-/
namespace Iv
variable {V O H : Type}

/-! ### Specification -/

/-- The machine has the primitive functions and the operators of Model/Std.lean (`std`) and its scanner, its parser and its tower know
them: the symbols are registered, numbers are read by the tower, names are made of the same characters for the scanner and the interpreter, and
the programs of the specification do not load files. -/
structure CalcWorld (e : StdEnv V O) (ident : Func (AVal V O) → Option (UItem V O)) (w : World (AVal V O) H) : Prop where
  std : StdSys e ident w.sys
  scan : CalcScan w.ctx ⟨w.sys.letter, w.sys.number, w.sys.upper⟩
  prim : ∀ p : Calc.Prim, w.pctx.prim (String.ofList [p.char]) = true
  mop : ∀ s ∈ ["/", "\\", "⍨", "¨", "←"], w.pctx.prim s = false ∧ w.pctx.op s = some false
  number : ∀ s, w.pctx.number s = (parseNumber e.text s.toList).map (fun x => .scalar (.num x))
  varname : ∀ s, w.pctx.varname s = isVarname w.sys s
  load : ∀ p : List Calc.Stmt, w.load (p.map (fun s => some s.expr)) = none

/-- the classes of characters of the machine -/
def World.chars (w : World (AVal V O) H) : Calc.Chars := ⟨w.sys.letter, w.sys.number, w.sys.upper⟩

/-- the program uses names and numbers of the machine -/
def Proper' (w : World (AVal V O) H) (p : List Calc.Stmt) : Prop := p ≠ [] ∧ ∀ s ∈ p, s.Uses w.chars.VarName w.chars.FnName

/-- The values that have been written: arrays of integers; numbers and vectors are displayed as the specification says. -/
def WrittenOut (e : StdEnv V O) (vs : List (IVal (AVal V O))) (out : List (Arr Int)) : Prop :=
  List.Forall₂ (fun v a => ∃ d, v = .data d ∧ Shows d a ∧ (a.shape.length ≤ 1 → e.valText 0 d = .ok (Calc.showList a.data))) vs out

/-- The outcome of a line: with enough steps the evaluation succeeds in the state `j`, and it never ends in another way. -/
def Outcome (w : World (AVal V O) H) (line : List Char) (i j : Machine (AVal V O) H) : Prop :=
  (∃ n, evalLine w n line i = some (.ok (), j)) ∧ ∀ n r, evalLine w n line i = some r → r = (.ok (), j)

/-- lines that are typed one after the other -/
inductive Typed (w : World (AVal V O) H) : List (List Char) → Machine (AVal V O) H → Machine (AVal V O) H → Prop
  | nil (i) : Typed w [] i i
  | cons (l ls i j k) : Outcome w l i j → Typed w ls j k → Typed w (l :: ls) i k

/-- the same for the specification: programs one after the other -/
inductive Calc.Session : Calc.Scope → List (List Calc.Stmt) → List (Arr Int) → Prop
  | nil (c) : Calc.Session c [] []
  | cons (c p out c' ps outs) : Calc.Prints c p out c' → Calc.Session c' ps outs → Calc.Session c (p :: ps) (out ++ outs)

/-- a new interpreter: nothing is defined, ⎕IO is 1 -/
def Calc.start : Calc.Scope := ⟨1, fun _ => none, fun _ => none⟩

/-! ### Names -/

theorem name_arrow {k : Calc.Chars} {ctx : ScanCtx} (h : CalcScan ctx k) {c : Char} {cs : List Char} (hn : k.Name c cs) {d : Char}
    (hd : d ∈ c :: cs) : d ∉ ['→', '∇', '⎕', '⍺', '⍵'] := by
  intro hm
  have ho := h.other d (by simp only [List.mem_cons, List.not_mem_nil, or_false] at hm ⊢; tauto)
  have hu : d ≠ '_' := by rintro rfl; revert hm; decide
  rcases List.mem_cons.1 hd with rfl | hd
  · rcases hn.1 with h1 | h1
    · rw [ho.1] at h1; cases h1
    · exact hu h1
  · rcases hn.2 d hd with h1 | h1 | h1
    · rw [ho.1] at h1; cases h1
    · rw [ho.2] at h1; cases h1
    · exact hu h1

theorem afterArrow_none : (l : List Char) → '→' ∉ l → afterArrow l = none
  | [], _ => rfl
  | c :: cs, h => by
    simp only [List.mem_cons, not_or] at h
    rw [afterArrow, if_neg (fun e => h.1 e.symm), afterArrow_none cs h.2]

theorem allowed_name {sys : Sys (AVal V O) H} {k : Calc.Chars} (hk : k = ⟨sys.letter, sys.number, sys.upper⟩) {c : Char} {cs : List Char}
    (hn : k.Name c cs) : allowedAll sys (c :: cs) true = true := by
  subst hk
  have hc : ∀ cs : List Char, (∀ d ∈ cs, sys.letter d = true ∨ sys.number d = true ∨ d = '_') → allowedAll sys cs false = true := by
    intro cs
    induction cs with
    | nil => intro _; rfl
    | cons d ds ih =>
      intro h
      rw [allowedAll, ih (fun x hx => h x (by simp [hx]))]
      unfold allowedInVarname
      rcases h d (by simp) with h1 | h1 | h1 <;> simp [h1]
  rw [allowedAll, hc cs hn.2]
  unfold allowedInVarname
  rcases hn.1 with h1 | h1
  · simp only at h1; simp [h1]
  · simp [h1]

theorem isVarname_word {sys : Sys (AVal V O) H} {k : Calc.Chars} (hk : k = ⟨sys.letter, sys.number, sys.upper⟩) {ctx : ScanCtx}
    (h : CalcScan ctx k) {c : Char} {cs : List Char} (hn : k.Name c cs) :
    isVarname sys (String.ofList (c :: cs)) = some (!(k.upper c)) := by
  unfold isVarname
  rw [if_neg (by simp)]
  have ha : afterArrow (c :: cs) = none := afterArrow_none _ (fun hm => name_arrow h hn hm (by decide))
  have hs : (c :: cs).any (fun c => "⎕⍺⍵".toList.contains c) = false := by
    rw [List.any_eq_false]
    intro d hd
    have := name_arrow h hn hd
    simp only [List.mem_cons, List.not_mem_nil, or_false, not_or] at this
    simp [this]
  have := allowed_name hk hn
  simp only [String.toList_ofList, ha, Option.getD_none, this, if_true, hs, Bool.or_false]
  subst hk
  simp

theorem ordinary_word {k : Calc.Chars} {ctx : ScanCtx} (h : CalcScan ctx k) {c : Char} {cs : List Char} (hn : k.Name c cs) :
    Ordinary (String.ofList (c :: cs)) ∧ String.ofList (c :: cs) ≠ "∇" := by
  have h1 := name_arrow h hn (d := c) (by simp)
  have hne : ∀ s : String, s.toList.head? ≠ some c → String.ofList (c :: cs) ≠ s := by
    rintro s hs rfl
    simp at hs
  simp only [List.mem_cons, List.not_mem_nil, or_false, not_or] at h1
  refine ⟨⟨hne _ ?_, hne _ ?_, hne _ ?_, ?_⟩, hne _ ?_⟩
  · show some '⎕' ≠ some c
    simp; exact fun e => h1.2.2.1 e.symm
  · show some '⎕' ≠ some c
    simp; exact fun e => h1.2.2.1 e.symm
  · show some '⎕' ≠ some c
    simp; exact fun e => h1.2.2.1 e.symm
  · rw [String.toList_ofList, List.contains_eq_mem, decide_eq_false_iff_not]
    exact fun hm => name_arrow h hn hm (by decide)
  · show some '∇' ≠ some c
    simp; exact fun e => h1.2.1 e.symm

theorem arg_name {sys : Sys (AVal V O) H} {c : Char} (hc : c = '⍺' ∨ c = '⍵') : isVarname sys (String.ofList [c]) = some false := by
  rcases hc with rfl | rfl <;> (unfold isVarname; rw [if_neg (by decide)]; simp [afterArrow, allowedAll, allowedInVarname])

theorem vname_of {w : World (AVal V O) H} {ctx : ScanCtx} (h : CalcScan ctx w.chars) {x : String} (hx : w.chars.VarName x) : VName w.sys x := by
  rcases hx with rfl | rfl | ⟨c, cs, rfl, hn, hu⟩
  · exact ⟨by unfold Ordinary; decide, by decide, arg_name (.inl rfl)⟩
  · exact ⟨by unfold Ordinary; decide, by decide, arg_name (.inr rfl)⟩
  · obtain ⟨h1, h2⟩ := ordinary_word h hn
    refine ⟨h1, h2, ?_⟩
    rw [isVarname_word (k := w.chars) rfl h hn, hu]
    rfl

theorem fname_of {w : World (AVal V O) H} {ctx : ScanCtx} (h : CalcScan ctx w.chars) {x : String} (hx : w.chars.FnName x) : FName w.sys x := by
  obtain ⟨c, cs, rfl, hn, hu⟩ := hx
  obtain ⟨h1, h2⟩ := ordinary_word h hn
  refine ⟨h1, h2, ?_⟩
  rw [isVarname_word (k := w.chars) rfl h hn, hu]
  rfl

/-! ### Machines -/

theorem lookup_machine (w : World (AVal V O) H) (i : Machine (AVal V O) H) (s : St (AVal V O) H) {x : String} (hx : Ordinary x) :
    lookupEnv (i.sys w) s x = lookupEnv w.sys s x := by
  unfold lookupEnv
  rw [if_neg hx.1, if_neg hx.2.1, if_neg hx.1, if_neg hx.2.1]
  have : ¬ (x.toList.contains '→' = true) := by rw [hx.2.2.2]; simp
  rw [if_neg this, if_neg this]

theorem allowed_machine (w : World (AVal V O) H) (i : Machine (AVal V O) H) : (l : List Char) → (b : Bool) →
    allowedAll (i.sys w) l b = allowedAll w.sys l b
  | [], _ => rfl
  | c :: cs, b => by rw [allowedAll, allowedAll, allowed_machine w i cs false]; rfl

theorem vname_machine (w : World (AVal V O) H) (i : Machine (AVal V O) H) : isVarname (i.sys w) = isVarname w.sys := by
  funext x
  unfold isVarname
  simp only [allowed_machine]
  rfl

theorem agrees_machine (w : World (AVal V O) H) (i : Machine (AVal V O) H) (s : St (AVal V O) H) (c : Calc.Scope) :
    Agrees (i.sys w) s c ↔ Agrees w.sys s c := by
  have hv : VName (i.sys w) = VName w.sys := by unfold VName; rw [vname_machine]
  have hf : FName (i.sys w) = FName w.sys := by unfold FName; rw [vname_machine]
  constructor
  · intro h
    exact ⟨h.wf, h.origin, fun x a hx ha => by rw [← lookup_machine w i s hx.1]; exact h.vals x a (by rw [hv]; exact hx) ha,
      fun f b hx hb => by rw [← lookup_machine w i s hx.1, ← hv, ← hf]; exact h.fns f b (by rw [hf]; exact hx) hb⟩
  · intro h
    exact ⟨h.wf, h.origin, fun x a hx ha => by rw [lookup_machine w i s hx.1]; exact h.vals x a (by rw [← hv]; exact hx) ha,
      fun f b hx hb => by rw [lookup_machine w i s hx.1, hv, hf]; exact h.fns f b (by rw [← hf]; exact hx) hb⟩

theorem std_machine {e : StdEnv V O} {ident : Func (AVal V O) → Option (UItem V O)} {w : World (AVal V O) H} (h : StdSys e ident w.sys)
    (i : Machine (AVal V O) H) : StdSys e ident (i.sys w) := ⟨h.prim, h.reduce, h.scan, h.each, h.swap, h.copy, h.copyFn, h.strand, h.isScalar, h.toBool⟩

theorem calc_ctx {e : StdEnv V O} {ident : Func (AVal V O) → Option (UItem V O)} {w : World (AVal V O) H} (h : CalcWorld e ident w) :
    CalcCtx w.pctx (VName w.sys) (FName w.sys) where
  prim := h.prim
  mop := h.mop
  number n h1 h2 := by
    rw [h.number, String.toList_ofList, showInt_text, C71_round_trip e.text 0 n ⟨h1, h2⟩ (by simp)]
    rfl
  vname x hx := by rw [h.varname]; exact hx.2.2
  fname x hx := by rw [h.varname]; exact hx.2.2

/-! ### C92 -/

/-- a line of a program, in any state that agrees with the scope of the specification -/
theorem calc_line {e : StdEnv V O} {ident : Func (AVal V O) → Option (UItem V O)} {w : World (AVal V O) H} (hw : CalcWorld e ident w)
    (i : Machine (AVal V O) H) {c c' : Calc.Scope} (ha : Agrees w.sys i.st c) {p : List Calc.Stmt} {out : List (Arr Int)}
    (hp : Calc.Prints c p out c') (hu : Proper' w p) (line : List Char) (hl : Lexes w.ctx line (Calc.progToks p)) :
    ∃ j vs, Outcome w line i j ∧ j.st.out = i.st.out ++ vs ∧ WrittenOut e vs out ∧ Agrees w.sys j.st c' ∧ j.pkgs = i.pkgs ∧ j.st.pp = i.st.pp := by
  have hu' : ∀ s ∈ p, s.Uses (VName w.sys) (FName w.sys) := fun s hs =>
    stmt_mono (fun x hx => vname_of hw.scan hx) (fun x hx => fname_of hw.scan hx) s (hu.2 s hs)
  have hu'' : ∀ s ∈ p, s.Uses (VName (i.sys w)) (FName (i.sys w)) := by
    have hv : VName (i.sys w) = VName w.sys := by unfold VName; rw [vname_machine]
    have hf : FName (i.sys w) = FName w.sys := by unfold FName; rw [vname_machine]
    rw [hv, hf]; exact hu'
  obtain ⟨s', vs, r1, r2, r3, r4, r5, _, _⟩ := runs_prog e ident (i.sys w) (std_machine hw.std i) (arg_name (.inl rfl)) (arg_name (.inr rfl)) hp hu''
    i.st ((agrees_machine w i i.st c).2 ha)
  obtain ⟨n, hn⟩ := (C47_output (i.sys w) (p.map Calc.Stmt.expr) i.st (.ok ()) s').2 r1
  rw [List.map_map] at hn
  have hev : ∀ m, evalLine w m line i = evalMachine w m (p.map (some ∘ Calc.Stmt.expr)) i := by
    intro m
    unfold evalLine
    rw [scan_prog p line hl]
    simp only [prog_parse (calc_ctx hw) p hu.1 hu', evalOrLoad, hw.load p]
    rfl
  refine ⟨⟨s', i.pkgs⟩, vs.map .data, ⟨⟨n, ?_⟩, ?_⟩, r2, ?_, (agrees_machine w i s' c').1 r4, rfl, r5⟩
  · rw [hev n, evalMachine, hn]; rfl
  · intro m r hr
    rw [hev m, evalMachine] at hr
    cases hm : evalWrite (i.sys w) m (p.map (some ∘ Calc.Stmt.expr)) i.st with
    | none => rw [hm] at hr; cases hr
    | some q =>
      obtain ⟨h1, h2⟩ := yields_det (m := fun n => evalWrite (i.sys w) n (p.map (some ∘ Calc.Stmt.expr))) (mono_evalWrite (i.sys w) _)
        ⟨m, hm⟩ ⟨n, hn⟩
      rw [hm] at hr
      rcases q with ⟨q1, q2⟩
      simp only at h1 h2
      subst h1 h2
      simpa [recovered] using hr.symm
  · unfold WrittenOut
    rw [List.forall₂_map_left_iff]
    refine r3.imp ?_
    intro v a hv
    exact ⟨v, rfl, hv, fun hr => shows_text e hv hr⟩

/-- the state of a new interpreter -/
theorem agrees_start (sys : Sys (AVal V O) H) (h : H) : Agrees sys (St.init h) Calc.start where
  wf := ⟨by simp [St.init], fun i en p hi hp => by
    simp only [St.init] at hi
    cases i with
    | zero => simp at hi; subst hi; cases hp
    | succ i => simp at hi⟩
  origin := rfl
  vals x a _ h := by cases h
  fns f b _ h := by cases h

/-- Every program of the specification, written as a line in any way that has its tokens, does what the specification says: typed into a new
interpreter, it succeeds, and the values that are written are the ones of the specification. -/
theorem C92_program (e : StdEnv V O) (ident : Func (AVal V O) → Option (UItem V O)) (w : World (AVal V O) H) (hw : CalcWorld e ident w)
    (p : List Calc.Stmt) (hu : Proper' w p) (out : List (Arr Int)) (c : Calc.Scope) (hp : Calc.Prints Calc.start p out c)
    (line : List Char) (hl : Lexes w.ctx line (Calc.progToks p)) (h : H) :
    ∃ j, Outcome w line ⟨St.init h, []⟩ j ∧ WrittenOut e j.st.out out := by
  obtain ⟨j, vs, h1, h2, h3, _⟩ := calc_line hw ⟨St.init h, []⟩ (agrees_start w.sys h) hp hu line hl
  refine ⟨j, h1, ?_⟩
  rw [h2]
  simpa [St.init] using h3

/-- One way to write a program: its tokens one after the other, with a blank between neighbouring numbers and names. -/
theorem C92_source (e : StdEnv V O) (ident : Func (AVal V O) → Option (UItem V O)) (w : World (AVal V O) H) (hw : CalcWorld e ident w)
    (p : List Calc.Stmt) (hu : Proper' w p) : Lexes w.ctx (Calc.source (Calc.progToks p)) (Calc.progToks p) :=
  lex_source hw.scan _ (prog_good p hu.2)

/-- Sessions: every line is a program; the variables and functions of a line are known in the ones after it. -/
theorem C92_session (e : StdEnv V O) (ident : Func (AVal V O) → Option (UItem V O)) (w : World (AVal V O) H) (hw : CalcWorld e ident w)
    (ps : List (List Calc.Stmt)) (hu : ∀ p ∈ ps, Proper' w p) (outs : List (Arr Int)) (hp : Calc.Session Calc.start ps outs)
    (lines : List (List Char)) (hl : List.Forall₂ (fun l p => Lexes w.ctx l (Calc.progToks p)) lines ps) (h : H) :
    ∃ j, Typed w lines ⟨St.init h, []⟩ j ∧ WrittenOut e j.st.out outs := by
  have key : ∀ c (i : Machine (AVal V O) H), Agrees w.sys i.st c → Calc.Session c ps outs →
      ∃ j vs, Typed w lines i j ∧ j.st.out = i.st.out ++ vs ∧ WrittenOut e vs outs := by
    clear hp
    induction hl generalizing outs with
    | nil =>
      intro c i _ hs
      cases hs
      exact ⟨i, [], .nil i, by simp, .nil⟩
    | cons h1 h2 ih =>
      intro c i ha hs
      cases hs with
      | cons _ p out c' ps outs hp hs =>
        obtain ⟨j, vs, e1, e2, e3, e4, _⟩ := calc_line hw i ha hp (hu _ (by simp)) _ h1
        obtain ⟨k, us, g1, g2, g3⟩ := ih (fun q hq => hu q (by simp [hq])) outs c' j e4 hs
        refine ⟨k, vs ++ us, .cons _ _ i j k e1 g1, by rw [g2, e2, List.append_assoc], List.rel_append e3 g3⟩
  obtain ⟨j, vs, h1, h2, h3⟩ := key Calc.start ⟨St.init h, []⟩ (agrees_start w.sys h) hp
  refine ⟨j, h1, ?_⟩
  rw [h2]
  simpa [St.init] using h3

/-! ### The assumptions are met by the interpreter of Model/Std.lean -/

theorem primOf_char (p : Calc.Prim) : primOf (String.ofList [p.char]) = some p := by cases p <;> decide

theorem stdSys_ok (e : StdEnv V O) (ident : Func (AVal V O) → Option (UItem V O)) (letter number upper : Char → Bool) :
    StdSys e ident (e.sys (H := H) ident letter number upper) where
  prim p := by
    refine ⟨[e.handler p], by show Option.map _ (primOf _) = _; rw [primOf_char]; rfl, ?_, ?_⟩
    · intro rec r a s _
      show runAct rec (.origin (fun io => finish (e.prim1 io p r))) s = _
      rw [runAct]
      show runAct rec (finish (e.prim1 s.origin p r)) s = _
      cases e.prim1 s.origin p r <;> rfl
    · intro rec l r a b s _ _
      show runAct rec (finish (e.prim2 p l r)) s = _
      cases e.prim2 p l r <;> rfl
  reduce := ⟨_, [], rfl, rfl, fun rec f r a s _ => rfl⟩
  scan := ⟨_, [], rfl, rfl, fun rec f r a s _ => rfl⟩
  each := by
    refine ⟨_, [], rfl, rfl, fun rec f l al r ar s hf hl _ => ?_⟩
    cases hl with
    | none =>
      cases f with
      | prim p =>
        have hp : p ≠ "<" := fun h => hf (by rw [h])
        show runAct rec (if p = "<" then _ else _) s = _
        rw [if_neg hp]
      | _ => rfl
    | some l al =>
      cases f with
      | prim p =>
        have hp : p ≠ "<" := fun h => hf (by rw [h])
        show runAct rec (if p = "<" then _ else _) s = _
        rw [if_neg hp]
      | _ => rfl
  swap := ⟨_, [], rfl, rfl, fun rec f l al r ar s _ _ => rfl⟩
  copy rec r a s _ := rfl
  copyFn rec f s := rfl
  strand rec ns s _ := rfl
  isScalar x := rfl
  toBool x n _ := rfl

theorem C92_world (e : StdEnv V O) (ident : Func (AVal V O) → Option (UItem V O)) (letter number upper space : Char → Bool)
    (ho : ∀ c ∈ '→' :: '∇' :: '⎕' :: '⍺' :: '⍵' :: '(' :: ')' :: '{' :: '}' :: ':' :: '⋄' :: ' ' :: Calc.symbols,
      letter c = false ∧ number c = false)
    (hl : ∀ c, letter c = true → ¬ Digit c ∧ c ∉ ['.', '¯', '"', '\'', '`']) :
    CalcWorld e ident (e.world (H := H) ident letter number upper space) where
  std := stdSys_ok e ident letter number upper
  scan := {
    letter := rfl
    number := rfl
    symbol := fun c hc => if_pos hc
    plain := by
      intro c hc
      show (if c ∈ Calc.symbols then _ else _) = none
      rw [if_neg]
      intro hm
      rcases hc with hc | hc
      · have := (ho c (by simp only [List.mem_cons]; tauto)).1
        exact absurd (this.symm.trans hc) (by simp)
      · simp only [List.mem_cons, List.not_mem_nil, or_false] at hc
        rcases hc with rfl | rfl | rfl | rfl | rfl | rfl | rfl | rfl | rfl | rfl <;> revert hm <;> decide
    other := ho
    letters := hl }
  prim p := by
    show (primOf _).isSome = true
    rw [primOf_char]; rfl
  mop s hs := by
    simp only [List.mem_cons, List.not_mem_nil, or_false] at hs
    have h : ∀ s : String, (e.world (H := H) ident letter number upper space).pctx.prim s = (primOf s).isSome := fun _ => rfl
    have h' : ∀ s : String, (e.world (H := H) ident letter number upper space).pctx.op s = if s ∈ ["/", "\\", "⍨", "¨", "←"] then some false else none := fun _ => rfl
    rw [h, h']
    rcases hs with rfl | rfl | rfl | rfl | rfl <;> exact ⟨by decide, by decide⟩
  number s := rfl
  varname s := rfl
  load p := rfl

/-! ### Example: the factorial -/

namespace CalcDemo
open Calc hiding ident

def env : StdEnv Unit Unit where
  text := TextDemo.env
  tower := ⟨0, 0, fun _ => (), fun _ _ => none⟩
  uni _ := false
  method2 _ _ _ _ := none
  method1 _ _ _ := none
  eqs _ _ _ := none
  les _ _ _ := none
  index _ _ := none
  truth _ _ := none
  zero := .num (.int 0)
  rest2 _ _ _ := .error .err
  rest1 _ _ := .error .err
  other2 _ _ _ := .error .err
  other1 _ _ := .error .err

def world : World (AVal Unit Unit) Unit :=
  env.world (fun _ => none) (fun c => c.isAlpha) (fun c => c.isDigit) (fun c => c.isUpper) (fun c => c == ' ')

theorem world_ok : CalcWorld env (fun _ => none) world := by
  refine C92_world env _ _ _ _ _ ?_ ?_
  · decide
  · intro c hc
    refine ⟨fun hd => ?_, fun hm => ?_⟩
    · simp only [Char.isAlpha, Char.isUpper, Char.isLower, Bool.or_eq_true, decide_eq_true_eq, Bool.and_eq_true] at hc
      unfold Digit at hd
      have h1 : c.val ≤ 57 := hd.2
      rcases hc with ⟨h, _⟩ | ⟨h, _⟩
      · exact absurd (Nat.le_trans h h1) (by decide)
      · exact absurd (Nat.le_trans h h1) (by decide)
    · simp only [List.mem_cons, List.not_mem_nil, or_false] at hm
      rcases hm with rfl | rfl | rfl | rfl | rfl <;> revert hc <;> decide

def w : Tm := .var "⍵"

/-- `⍵≤1:1⋄⍵×f ⍵-1` -/
def factBody : Calc.Body := .guard (.dya w (.prim .le) .plain (.num 1 [])) (.num 1 [])
  (.ret (.dya w (.prim .mul) .plain (.mon (.name "f") .plain (.dya w (.prim .sub) .plain (.num 1 [])))))

/-- `f←{⍵≤1:1⋄⍵×f ⍵-1}⋄f n` -/
def fact (n : Nat) : List Stmt := [.fn "f" factBody, .shw (.mon (.name "f") .plain (.num n []))]

example : source (progToks (fact 5)) = "f←{⍵≤1:1⋄⍵×f ⍵-1}⋄f 5".toList := by decide +kernel

def factorial : Nat → Nat
  | 0 => 1
  | n + 1 => (n + 1) * factorial n

theorem fact_proper (n : Nat) (hn : (n : Int) < 2 ^ 63) : Proper' world (fact n) := by
  have hv : world.chars.VarName "⍵" := .inr (.inl rfl)
  have hf : world.chars.FnName "f" := ⟨'f', [], rfl, ⟨.inl rfl, by simp⟩, rfl⟩
  have h1 : ∀ m ∈ [(1 : Int)], -2 ^ 63 ≤ m ∧ m < 2 ^ 63 := by decide
  refine ⟨by simp [fact], ?_⟩
  intro s hs
  simp only [fact, List.mem_cons, List.not_mem_nil, or_false] at hs
  rcases hs with rfl | rfl
  · exact ⟨hf, ⟨hv, trivial, h1⟩, h1, hv, trivial, hf, hv, trivial, h1⟩
  · refine ⟨hf, ?_⟩
    intro m hm
    simp at hm
    subst hm
    omega

theorem fact_holds (n : Nat) (hn : (factorial n : Int) < 2 ^ 63) (hn' : (n : Int) < 2 ^ 63) (c : Scope) (hc : c.fns "f" = some factBody) :
    Holds c (.applies (.name "f") .plain none (single n) (single (factorial n))) := by
  induction n generalizing c with
  | zero =>
    refine .name _ _ _ _ _ _ hc (.yes _ _ _ _ _ (.dya _ _ _ _ _ (single (0 : Nat)) (single 1) _ (.num _ _) (.var _ _ _ rfl) (.prim2 _ _ _ _ _ rfl)) (.num _ _))
  | succ n ih =>
    cases n with
    | zero =>
      refine .name _ _ _ _ _ _ hc (.yes _ _ _ _ _ (.dya _ _ _ _ _ (single (1 : Nat)) (single 1) _ (.num _ _) (.var _ _ _ rfl) (.prim2 _ _ _ _ _ rfl)) (.num _ _))
    | succ n =>
      have hle : (factorial (n + 1) : Int) < 2 ^ 63 := by
        refine Int.lt_of_le_of_lt ?_ hn
        rw [factorial]
        exact_mod_cast Nat.le_mul_of_pos_left _ (by omega)
      refine .name _ _ _ _ _ _ hc (.no _ _ _ _ _ (.dya _ _ _ _ _ (single ((n + 1 + 1 : Nat) : Int)) (single 1) _ (.num _ _) (.var _ _ _ rfl) (.prim2 _ _ _ _ _ ?_)) (.ret _ _ _ ?_))
      · have : decide (((n + 1 + 1 : Nat) : Int) ≤ 1) = false := decide_eq_false (by omega)
        simp only [apply2, numbers2, Option.bind_some, elementwise, single, if_true, List.zipWith, truth, this]
        rfl
      · refine .dya _ _ _ _ _ (single ((n + 1 + 1 : Nat) : Int)) (single (factorial (n + 1))) _
          (.mon _ _ _ _ (single ((n + 1 : Nat) : Int)) _ (.dya _ _ _ _ _ (single ((n + 1 + 1 : Nat) : Int)) (single 1) _ (.num _ _) (.var _ _ _ rfl) (.prim2 _ _ _ _ _ ?_))
            (ih hle (by omega) _ hc)) (.var _ _ _ rfl) (.prim2 _ _ _ _ _ ?_)
        · have : int64 (((n + 1 + 1 : Nat) : Int) - 1) = ((n + 1 : Nat) : Int) := by
            unfold int64
            rw [Int.bmod_eq_of_le] <;> omega
          simp only [apply2, numbers2, Option.bind_some, elementwise, single, if_true, List.zipWith, this]
        · have : int64 (((n + 1 + 1 : Nat) : Int) * (factorial (n + 1) : Int)) = (factorial (n + 1 + 1) : Int) := by
            have h0 : ((n + 1 + 1 : Nat) : Int) * (factorial (n + 1) : Int) = (factorial (n + 1 + 1) : Int) := by
              show _ = ((((n + 1 + 1) * factorial (n + 1) : Nat)) : Int)
              push_cast
              rfl
            rw [h0]
            unfold int64
            rw [Int.bmod_eq_of_le] <;> omega
          simp only [apply2, numbers2, Option.bind_some, elementwise, single, if_true, List.zipWith, this]

/-- The program `f←{⍵≤1:1⋄⍵×f ⍵-1}⋄f n`, as text, prints the digits of the factorial of `n`, for every `n` whose factorial has 64 bits. -/
theorem C92_factorial (n : Nat) (hn : (factorial n : Int) < 2 ^ 63) (hn' : (n : Int) < 2 ^ 63) :
    ∃ j d, Outcome world (source (progToks (fact n))) ⟨St.init (), []⟩ j ∧ j.st.out = [.data d] ∧
      env.valText 0 d = .ok (Nat.toDigits 10 (factorial n)) := by
  have hp : Prints start (fact n) [single (factorial n)] (start.def "f" factBody) :=
    .fn _ _ _ _ _ _ (.shw _ _ _ _ _ _ (.mon _ _ _ _ (single n) _ (.num _ _) (fact_holds n hn hn' _ rfl)) (.nil _))
  obtain ⟨j, h1, h2⟩ := C92_program env _ world world_ok (fact n) (fact_proper n hn') _ _ hp _ (C92_source env _ world world_ok _ (fact_proper n hn')) ()
  unfold WrittenOut at h2
  generalize ho : j.st.out = o at h2
  cases h2 with
  | cons h3 h4 =>
    cases h4
    obtain ⟨d, rfl, _, h5⟩ := h3
    refine ⟨j, d, h1, ho, ?_⟩
    · rw [h5 (by simp [single])]
      simp only [single, showList, showInt]
      rw [if_neg (by omega)]
      rfl

/-- `A←2 3⍴⍳6` and, on the next line, `+/A` -/
def rowSums : List (List Stmt) :=
  [[.set "A" (.dya (.num 2 [3]) (.prim .rho) .plain (.mon (.prim .iota) .plain (.num 6 [])))], [.shw (.mon (.prim .add) .reduce (.var "A"))]]

theorem fold3 (c : Scope) (x y z : Int) (hy : int64 (y + z) = y + z) (hx : int64 (x + (y + z)) = x + (y + z)) :
    Holds c (.folds (.prim .add) [x, y, z] (x + (y + z))) :=
  .step _ _ _ _ (y + z) _ (by simp) (.step _ _ _ _ z _ (by simp) (.last _ _ _) (.prim2 _ _ _ _ _ (by rw [← hy]; rfl))) (.prim2 _ _ _ _ _ (by rw [← hx]; rfl))

theorem rowSums_session : Session start rowSums [vector [6, 15]] := by
  refine .cons _ _ [] _ _ _ (.set _ _ _ ⟨[2, 3], [1, 2, 3, 4, 5, 6]⟩ _ _ _ ?_ (.nil _)) (.cons _ _ [_] _ _ _ (.shw _ _ _ _ _ _ ?_ (.nil _)) (.nil _))
  · exact .dya _ _ _ _ _ (vector [2, 3]) (vector [1, 2, 3, 4, 5, 6]) _
      (.mon _ _ _ _ (single 6) _ (.num _ _) (.prim1 _ _ _ _ (by decide))) (.nums _ _ _ _) (.prim2 _ _ _ _ _ (by decide))
  · refine .mon _ _ _ _ ⟨[2, 3], [1, 2, 3, 4, 5, 6]⟩ _ (.var _ _ _ rfl) (.reduce _ _ [2] 3 _ _ (by simp) ?_)
    exact .all _ _ _ _ _ _ (fold3 _ 1 2 3 (by decide) (by decide)) (.all _ _ _ _ _ _ (fold3 _ 4 5 6 (by decide) (by decide)) (.none _ _))

example : rowSums.map (fun p => source (progToks p)) = ["A←2 3⍴⍳6".toList, "+/A".toList] := by decide +kernel

theorem rowSums_proper : ∀ p ∈ rowSums, Proper' world p := by
  have hv : world.chars.VarName "A" := .inr (.inr ⟨'A', [], rfl, ⟨.inl rfl, by simp⟩, rfl⟩)
  intro p hp
  simp only [rowSums, List.mem_cons, List.not_mem_nil, or_false] at hp
  rcases hp with rfl | rfl
  · refine ⟨by simp, fun s hs => ?_⟩
    simp only [List.mem_cons, List.not_mem_nil, or_false] at hs
    subst hs
    exact ⟨hv, by decide, by simp only [Tm.Uses]; decide, trivial, trivial, by simp only [Tm.Uses]; decide⟩
  · refine ⟨by simp, fun s hs => ?_⟩
    simp only [List.mem_cons, List.not_mem_nil, or_false] at hs
    subst hs
    exact ⟨trivial, hv⟩

/-- the two lines print `6 15` -/
example : ∃ j d, Typed world (rowSums.map (fun p => source (progToks p))) ⟨St.init (), []⟩ j ∧ j.st.out = [.data d] ∧
    env.valText 0 d = .ok "6 15".toList := by
  obtain ⟨j, h1, h2⟩ := C92_session env _ world world_ok rowSums rowSums_proper _ rowSums_session (rowSums.map (fun p => source (progToks p)))
    (by
      rw [List.forall₂_map_left_iff]
      exact List.forall₂_same.2 (fun p hp => C92_source env _ world world_ok p (rowSums_proper p hp))) ()
  unfold WrittenOut at h2
  generalize ho : j.st.out = o at h2
  cases h2 with
  | cons h3 h4 =>
    cases h4
    obtain ⟨d, rfl, _, h5⟩ := h3
    exact ⟨j, d, h1, ho, by rw [h5 (by simp [vector])]; exact congrArg Except.ok (by decide +kernel)⟩

/-- `A←1⌽+\⍳4`, then `1-¨A` and `{2×⍵}¨A` -/
def scans : List (List Stmt) :=
  [[.set "A" (.dya (.num 1 []) (.prim .rev) .plain (.mon (.prim .add) .scan (.mon (.prim .iota) .plain (.num 4 []))))],
    [.shw (.dya (.num 1 []) (.prim .sub) .each (.var "A"))],
    [.shw (.mon (.lam (.ret (.dya (.num 2 []) (.prim .mul) .plain (.var "⍵")))) .each (.var "A"))]]

example : scans.map (fun p => source (progToks p)) = ["A←1⌽+\\⍳4".toList, "1-¨A".toList, "{2×⍵}¨A".toList] := by decide +kernel

theorem folds_add (c : Scope) : ∀ (x : Int) (xs : List Int) (v : Int), (xs.foldr (fun a b => int64 (a + b)) x = v) →
    Holds c (.folds (.prim .add) (xs ++ [x]) v) := by
  intro x xs
  induction xs with
  | nil => intro v h; subst h; exact .last _ _ _
  | cons y ys ih =>
    intro v h
    subst h
    refine .step _ _ _ _ _ _ (by simp) (ih _ rfl) (.prim2 _ _ _ _ _ rfl)

theorem scans_session : Session start scans [vector [-2, -5, -9, 0], vector [6, 12, 20, 2]] := by
  refine .cons _ _ [] _ _ _ (.set _ _ _ (vector [3, 6, 10, 1]) _ _ _ ?_ (.nil _))
    (.cons _ _ [_] _ _ _ (.shw _ _ _ _ _ _ ?_ (.nil _)) (.cons _ _ [_] _ _ _ (.shw _ _ _ _ _ _ ?_ (.nil _)) (.nil _)))
  · refine .dya _ _ _ _ _ (single 1) (vector [1, 3, 6, 10]) _ ?_ (.num _ _) (.prim2 _ _ _ _ _ (by decide))
    refine .mon _ _ _ _ (vector [1, 2, 3, 4]) _ (.mon _ _ _ _ (single 4) _ (.num _ _) (.prim1 _ _ _ _ (by decide))) ?_
    refine .scan _ _ [] 4 [1, 2, 3, 4] [1, 3, 6, 10] ?_
    have hr : (rows 4 [1, 2, 3, 4]).flatMap prefixes = [[1], [1, 2], [1, 2, 3], [1, 2, 3, 4]] := by decide
    rw [hr]
    exact .all _ _ _ _ _ _ (folds_add _ 1 [] _ (by decide)) (.all _ _ _ _ _ _ (folds_add _ 2 [1] _ (by decide))
      (.all _ _ _ _ _ _ (folds_add _ 3 [1, 2] _ (by decide)) (.all _ _ _ _ _ _ (folds_add _ 4 [1, 2, 3] _ (by decide)) (.none _ _))))
  · refine .dya _ _ _ _ _ (single 1) (vector [3, 6, 10, 1]) _ (.var _ _ _ rfl) (.num _ _) (.eachL _ _ _ _ _ (by simp) (by decide) ?_)
    exact .pair _ _ (some 1) _ _ _ _ (.prim2 _ _ _ _ _ (by decide)) (.pair _ _ (some 1) _ _ _ _ (.prim2 _ _ _ _ _ (by decide))
      (.pair _ _ (some 1) _ _ _ _ (.prim2 _ _ _ _ _ (by decide)) (.pair _ _ (some 1) _ _ _ _ (.prim2 _ _ _ _ _ (by decide)) (.done _ _))))
  · refine .mon _ _ _ _ (vector [3, 6, 10, 1]) _ (.var _ _ _ rfl) (.each1 _ _ _ _ (by simp) (by decide) ?_)
    have h : ∀ (c : Scope) (y z : Int), apply2 .mul (single 2) (single y) = some (single z) →
        Holds c (.applies (.lam (.ret (.dya (.num 2 []) (.prim .mul) .plain (.var "⍵")))) .plain ((none : Option Int).map single) (single y) (single z)) :=
      fun c y z h => .lam _ _ _ _ _ (.ret _ _ _ (.dya _ _ _ _ _ (single 2) (single y) _ (.var _ _ _ rfl) (.num _ _) (.prim2 _ _ _ _ _ h)))
    exact .pair _ _ none _ _ _ _ (h _ 3 6 (by decide)) (.pair _ _ none _ _ _ _ (h _ 6 12 (by decide))
      (.pair _ _ none _ _ _ _ (h _ 10 20 (by decide)) (.pair _ _ none _ _ _ _ (h _ 1 2 (by decide)) (.done _ _))))

theorem scans_proper : ∀ p ∈ scans, Proper' world p := by
  have hv : world.chars.VarName "A" := .inr (.inr ⟨'A', [], rfl, ⟨.inl rfl, by simp⟩, rfl⟩)
  have hw : world.chars.VarName "⍵" := .inr (.inl rfl)
  have h1 : ∀ m ∈ [(1 : Int)], -2 ^ 63 ≤ m ∧ m < 2 ^ 63 := by decide
  have h2 : ∀ m ∈ [(2 : Int)], -2 ^ 63 ≤ m ∧ m < 2 ^ 63 := by decide
  have h4 : ∀ m ∈ [(4 : Int)], -2 ^ 63 ≤ m ∧ m < 2 ^ 63 := by decide
  intro p hp
  simp only [scans, List.mem_cons, List.not_mem_nil, or_false] at hp
  rcases hp with rfl | rfl | rfl
  · refine ⟨by simp, fun s hs => ?_⟩
    simp only [List.mem_cons, List.not_mem_nil, or_false] at hs
    subst hs
    exact ⟨hv, by decide, h1, trivial, trivial, trivial, h4⟩
  · refine ⟨by simp, fun s hs => ?_⟩
    simp only [List.mem_cons, List.not_mem_nil, or_false] at hs
    subst hs
    exact ⟨h1, trivial, hv⟩
  · refine ⟨by simp, fun s hs => ?_⟩
    simp only [List.mem_cons, List.not_mem_nil, or_false] at hs
    subst hs
    exact ⟨⟨h2, trivial, hw⟩, hv⟩

/-- `1-¨A` prints `¯2 ¯5 ¯9 0`, and `{2×⍵}¨A` prints `6 12 20 2` -/
theorem C92_scan_each : ∃ j d d', Typed world (scans.map (fun p => source (progToks p))) ⟨St.init (), []⟩ j ∧ j.st.out = [.data d, .data d'] ∧
    env.valText 0 d = .ok "¯2 ¯5 ¯9 0".toList ∧ env.valText 0 d' = .ok "6 12 20 2".toList := by
  obtain ⟨j, h1, h2⟩ := C92_session env _ world world_ok scans scans_proper _ scans_session (scans.map (fun p => source (progToks p)))
    (by
      rw [List.forall₂_map_left_iff]
      exact List.forall₂_same.2 (fun p hp => C92_source env _ world world_ok p (scans_proper p hp))) ()
  unfold WrittenOut at h2
  generalize ho : j.st.out = o at h2
  cases h2 with
  | cons h3 h4 =>
    obtain ⟨d, rfl, _, h5⟩ := h3
    cases h4 with
    | cons h3 h4 =>
      cases h4
      obtain ⟨d', rfl, _, h6⟩ := h3
      exact ⟨j, d, d', h1, ho, by rw [h5 (by simp [vector])]; exact congrArg Except.ok (by decide +kernel),
        by rw [h6 (by simp [vector])]; exact congrArg Except.ok (by decide +kernel)⟩

end CalcDemo

end Iv

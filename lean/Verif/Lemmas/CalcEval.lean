import Verif.Lemmas.CalcAct
import Verif.Lemmas.CalcOps
import Verif.SpecShow
/-
C92: the evaluation of the programs of the specification.
-/
namespace Iv
variable {V O H : Type}

/-! ### Programs of the specification as expressions of the interpreter -/

/-- the function of an operator -/
def Calc.Op.func (o : Calc.Op) (f : Func (AVal V O)) : Func (AVal V O) :=
  match o with
  | .plain => f
  | .reduce => .der "/" (some (.fn f)) none
  | .scan => .der "\\" (some (.fn f)) none
  | .swap => .der "⍨" (some (.fn f)) none
  | .each => .der "¨" (some (.fn f)) none

/-- the constant -/
def numVal (n : Int) : AVal V O := .scalar (.num (.int n))

/-- an assignment -/
def assignExpr (x : String) (t : Expr (AVal V O)) : Expr (AVal V O) := .app (.der "←" (some (.var x)) none) none t false

mutual
def Calc.Tm.expr : Calc.Tm → Expr (AVal V O)
  | .num n [] => .lit (numVal n)
  | .num n (m :: ms) => .strand ((n :: m :: ms).map (fun k => .lit (numVal k)))
  | .var x => .var x
  | .mon f o r => .app (o.func f.func) none r.expr false
  | .dya l f o r => .app (o.func f.func) (some l.expr) r.expr false

def Calc.Fn.func : Calc.Fn → Func (AVal V O)
  | .prim p => .prim (String.ofList [p.char])
  | .name f => .fvar f
  | .lam b => .lam (some b.guards)

def Calc.Body.guards : Calc.Body → List (Guard (AVal V O))
  | .ret t => [.mk none (some t.expr)]
  | .set x t b => .mk none (some (assignExpr x t.expr)) :: b.guards
  | .guard c t b => .mk (some c.expr) (some t.expr) :: b.guards
end

/-- a name for variables -/
def VName {D : Type} (sys : Sys D H) (x : String) : Prop := Ordinary x ∧ x ≠ "∇" ∧ isVarname sys x = some false

/-- a name for functions -/
def FName {D : Type} (sys : Sys D H) (x : String) : Prop := Ordinary x ∧ x ≠ "∇" ∧ isVarname sys x = some true

/-- The state of the interpreter has the values and functions of the scope. -/
structure Agrees (sys : Sys (AVal V O) H) (s : St (AVal V O) H) (c : Calc.Scope) : Prop where
  wf : WF s
  origin : s.origin = c.origin
  vals : ∀ x a, VName sys x → c.vals x = some a → ∃ d, (lookupEnv sys s x).1 = some (.data d) ∧ Shows d a
  fns : ∀ f b, FName sys f → c.fns f = some b → (lookupEnv sys s f).1 = some (.fn (.lam (some b.guards))) ∧ b.Uses (VName sys) (FName sys)

theorem Agrees.later {sys : Sys (AVal V O) H} {s s' : St (AVal V O) H} {c : Calc.Scope} (h : Agrees sys s c) (k : Later s s') : Agrees sys s' c where
  wf := k.wf
  origin := k.origin.trans h.origin
  vals x a hx ha := by
    obtain ⟨d, h1, h2⟩ := h.vals x a hx ha
    exact ⟨d, (lookup_later sys k h.wf hx.1).trans h1, h2⟩
  fns f b hf hb := by
    obtain ⟨h1, h2⟩ := h.fns f b hf hb
    exact ⟨(lookup_later sys k h.wf hf.1).trans h1, h2⟩

theorem fname_not {sys : Sys (AVal V O) H} {f x : String} (hf : FName sys f) (hx : isVarname sys x = some false) : f ≠ x := by
  intro h
  have := hf.2.2
  rw [h, hx] at this
  simp at this

/-- inside of a call -/
theorem Agrees.call {sys : Sys (AVal V O) H} {s : St (AVal V O) H} {c : Calc.Scope} (h : Agrees sys s c) (body)
    (hna : isVarname sys "⍺" = some false) (hnw : isVarname sys "⍵" = some false)
    {l : Option (AVal V O)} {al : Option (Arr Int)} (hl : ShowsLeft l al) {r : AVal V O} {ar : Arr Int} (hr : Shows r ar) :
    Agrees sys (enter s body (l.map .data) (.data r)) (c.call al ar) where
  wf := wf_enter h.wf _ _ _
  origin := h.origin
  vals x a hx ha := by
    simp only [Calc.Scope.call] at ha
    by_cases h1 : x = "⍺"
    · subst h1
      rw [if_pos rfl] at ha
      subst ha
      cases hl with
      | some v _ hv => exact ⟨v, lookup_left sys h.wf _ _ _, hv⟩
    · rw [if_neg h1] at ha
      by_cases h2 : x = "⍵"
      · subst h2
        simp only [if_true, Option.some.injEq] at ha
        subst ha
        exact ⟨r, lookup_right sys h.wf _ _ _, hr⟩
      · rw [if_neg h2] at ha
        obtain ⟨d, e1, e2⟩ := h.vals x a hx ha
        exact ⟨d, (lookup_enter sys h.wf _ _ _ hx.1 hx.2.1 h1 h2).trans e1, e2⟩
  fns f b hf hb := by
    obtain ⟨e1, e2⟩ := h.fns f b hf hb
    exact ⟨(lookup_enter sys h.wf _ _ _ hf.1 hf.2.1 (fname_not hf hna) (fname_not hf hnw)).trans e1, e2⟩

/-- after an assignment -/
theorem Agrees.set {sys : Sys (AVal V O) H} {s : St (AVal V O) H} {c : Calc.Scope} (h : Agrees sys s c) {x : String} (hx : VName sys x)
    {d : AVal V O} {a : Arr Int} (hd : Shows d a) : Agrees sys (bindVar s x (.data d)) (c.set x a) where
  wf := wf_bindVar h.wf _ _
  origin := h.origin
  vals y b hy hb := by
    simp only [Calc.Scope.set] at hb
    by_cases h1 : y = x
    · subst h1
      simp only [if_true, Option.some.injEq] at hb
      subst hb
      exact ⟨d, lookup_bind_same sys h.wf hx.1 _, hd⟩
    · rw [if_neg h1] at hb
      obtain ⟨d', e1, e2⟩ := h.vals y b hy hb
      exact ⟨d', (lookup_bind_other sys h.wf hy.1 h1 _).trans e1, e2⟩
  fns f b hf hb := by
    obtain ⟨e1, e2⟩ := h.fns f b hf hb
    exact ⟨(lookup_bind_other sys h.wf hf.1 (fname_not hf hx.2.2) _).trans e1, e2⟩

/-- after a definition -/
theorem Agrees.def {sys : Sys (AVal V O) H} {s : St (AVal V O) H} {c : Calc.Scope} (h : Agrees sys s c) {f : String} (hf : FName sys f)
    {b : Calc.Body} (hb : b.Uses (VName sys) (FName sys)) : Agrees sys (bindVar s f (.fn (.lam (some b.guards)))) (c.def f b) where
  wf := wf_bindVar h.wf _ _
  origin := h.origin
  vals y a hy ha := by
    obtain ⟨d', e1, e2⟩ := h.vals y a hy ha
    exact ⟨d', (lookup_bind_other sys h.wf hy.1 (fun e => fname_not hf hy.2.2 e.symm) _).trans e1, e2⟩
  fns g b' hg hb' := by
    simp only [Calc.Scope.def] at hb'
    by_cases h1 : g = f
    · subst h1
      simp only [if_true, Option.some.injEq] at hb'
      subst hb'
      exact ⟨lookup_bind_same sys h.wf hf.1 _, hb⟩
    · rw [if_neg h1] at hb'
      obtain ⟨e1, e2⟩ := h.fns g b' hg hb'
      exact ⟨(lookup_bind_other sys h.wf hg.1 h1 _).trans e1, e2⟩

/-! ### Assignments -/

/-- an assignment binds the value in the current environment -/
theorem eval_assign {D : Type} (sys : Sys D H) (x : String) (t rhs : Expr D) (ht : t = .var x ∨ t = .fn (.fvar x)) (ho : Ordinary x) (hα : x ≠ "⍺")
    (s s1 : St D H) (v : IVal D) (h : Evals sys (.eval rhs) s (.ok v) s1)
    (hc : ∀ n, runAct (run sys n) (sys.copy v) s1 = some (.ok v, s1)) (hn : isVarname sys x = some v.isFn) :
    Evals sys (.eval (.app (.der "←" (some t) none) none rhs false)) s (.ok v) (bindVar s1 x v) := by
  refine (C46_monadic_order sys _ _ _ _ _).mpr (.inr ⟨v, s1, h, ⟨1, ?_⟩⟩)
  have ht' : evalTarget (run sys 0) t = pure (.one x none) := by
    rcases ht with rfl | rfl
    · simp only [evalTarget, targetName]
    · rfl
  simp only [run, stepTask, callStep, derivedStep, if_true, em_bind, assignStep, assignScalar]
  have ht'' : evalTarget (fun _ => (noFuel : EM D H (IVal D))) t = pure (.one x none) := ht'
  have hc' : runAct (fun _ => (noFuel : EM D H (IVal D))) (sys.copy v) s1 = some (.ok v, s1) := hc 0
  simp only [ht'', em_pure, em_bind, hc']
  rw [assignEnv_ordinary sys x v none s1 ho hn (fun h => absurd h hα)]
  rfl

/-! ### Reduction -/

theorem rows_groups (n : Nat) (data : List Int) : Calc.rows n data = rowGroups n data := rfl

theorem groups_items {d : List (UItem V O)} {l : List Int} (h : List.Forall₂ ItemIs d l) (n : Nat) :
    List.Forall₂ (List.Forall₂ ItemIs) (rowGroups n d) (rowGroups n l) := by
  unfold rowGroups
  rw [h.length_eq, List.forall₂_map_left_iff, List.forall₂_map_right_iff]
  apply List.forall₂_same.2
  intro i _
  exact List.forall₂_take _ (List.forall₂_drop _ h)

theorem shows_single {u : AVal V O} {n : Int} (h : Shows u (Calc.single n)) : ∃ x, u = .scalar x ∧ ItemIs x n := by
  cases h with
  | scalar x n h => exact ⟨x, rfl, h⟩
  | arr k d a h => exact absurd rfl h

variable (e : StdEnv V O) (ident : Func (AVal V O) → Option (UItem V O)) (sys : Sys (AVal V O) H)

theorem reduce_vector (f : Func (AVal V O)) (k : Kind) (d : List (UItem V O)) (hne : d ≠ []) {s s' : St (AVal V O) H} {x : UItem V O}
    (h : DoesE sys (rfold (callItem f) d) s x s') : Does sys (e.reduceAct ident f (.arr k ⟨[d.length], d⟩)) s (.data (.scalar x)) s' := by
  unfold StdEnv.reduceAct
  rw [C25_vector e.kind (ident f) (callItem f) k d hne (-1) (by unfold RedAxis; simp)]
  exact does_bind sys (doesE_bind sys h (doesE_pure sys (Val.scalar x) s')) (does_ret sys _ _)

theorem reduce_rows (f : Func (AVal V O)) (k : Kind) (ls : List Nat) (hls : ls ≠ []) (n : Nat) (hn : 2 ≤ n) (d : List (UItem V O))
    (hw : (⟨ls ++ [n], d⟩ : Arr (UItem V O)).WF) {s s' : St (AVal V O) H} {ds : List (UItem V O)}
    (h : DoesE sys ((rowGroups n d).mapM (rfold (callItem f))) s ds s') :
    Does sys (e.reduceAct ident f (.arr k ⟨ls ++ [n], d⟩)) s (.data (.arr (e.kind ds) ⟨ls, ds⟩)) s' := by
  unfold StdEnv.reduceAct
  have h0 : 0 < ls.length := List.length_pos_iff.2 hls
  have hE : (ls ++ [n]).eraseIdx ls.length = ls := by
    rw [List.eraseIdx_append_of_length_le (Nat.le_refl _), Nat.sub_self]; simp
  rw [C25_axis e.kind (ident f) (callItem f) k ⟨ls ++ [n], d⟩ hw (by show 2 ≤ (ls ++ [n]).length; simp; omega) (-1) ls.length
    (by unfold RedAxis; simp) (by simpa using hn)]
  simp only [hE]
  rw [← lines_last ⟨ls ++ [n], d⟩ hw ls n (by omega) rfl, mapM_map'] at h
  exact does_bind sys (doesE_bind sys h (doesE_pure sys _ s')) (does_ret sys _ _)

theorem reduce_ones (f : Func (AVal V O)) (k : Kind) (ls : List Nat) (hls : ls ≠ []) (d : List (UItem V O)) (hd : d ≠ [])
    (hw : (⟨ls ++ [1], d⟩ : Arr (UItem V O)).WF) (s : St (AVal V O) H) :
    Does sys (e.reduceAct ident f (.arr k ⟨ls ++ [1], d⟩)) s (.data (.arr k ⟨ls, d⟩)) s := by
  unfold StdEnv.reduceAct
  have h0 : 0 < ls.length := List.length_pos_iff.2 hls
  have hE : (ls ++ [1]).eraseIdx ls.length = ls := by
    rw [List.eraseIdx_append_of_length_le (Nat.le_refl _), Nat.sub_self]; simp
  rw [(C25_axis_one e.kind (ident f) (callItem f) k ⟨ls ++ [1], d⟩ hw hd (by show 2 ≤ (ls ++ [1]).length; simp; omega) (-1) ls.length
    (by unfold RedAxis; simp) (by simp)).1]
  simp only [hE]
  exact does_bind sys (doesE_pure sys _ s) (does_ret sys _ _)

/-- folding single numbers -/
theorem folds_ones {c : Calc.Scope} {f : Calc.Fn} : ∀ {xs vs : List Int}, Calc.Holds c (.foldsAll f (xs.map (fun x => [x])) vs) → vs = xs := by
  intro xs
  induction xs with
  | nil => intro vs h; cases h; rfl
  | cons x xs ih =>
    intro vs h
    cases h with
    | all _ _ _ v _ vs h1 h2 =>
      rw [ih h2]
      cases h1 with
      | last => rfl
      | step _ _ _ _ _ _ h => exact absurd rfl h

theorem groups_one {α : Type} (l : List α) : rowGroups 1 l = l.map (fun x => [x]) := by
  unfold rowGroups
  apply List.ext_getElem?
  intro i
  rw [List.getElem?_map, List.getElem?_map, Nat.div_one]
  by_cases hi : i < l.length
  · rw [List.getElem?_range hi, List.getElem?_eq_getElem hi, Option.map_some, Option.map_some, Nat.mul_one,
      List.drop_eq_getElem_cons hi]
    rfl
  · rw [List.getElem?_eq_none (by simpa using hi), List.getElem?_eq_none (by simpa using hi)]
    rfl

/-- pairs of elements -/
def PairIs (q : Option (UItem V O) × UItem V O) (p : Option Int × Int) : Prop := Option.Rel ItemIs q.1 p.1 ∧ ItemIs q.2 p.2

/-- What a claim of the specification means for the interpreter. -/
def Realized (c : Calc.Scope) : Calc.Claim → Prop
  | .value t a => t.Uses (VName sys) (FName sys) → ∀ s, Agrees sys s c →
      ∃ u s', Evals sys (.eval t.expr) s (.ok (.data u)) s' ∧ Shows u a ∧ Later s s'
  | .applies f o l r a => f.Uses (VName sys) (FName sys) → ∀ s, Agrees sys s c → ∀ lv rv, ShowsLeft lv l → Shows rv r →
      ∃ u s', Evals sys (.call (o.func f.func) (lv.map .data) (.data rv)) s (.ok (.data u)) s' ∧ Shows u a ∧ Later s s'
  | .body b a => b.Uses (VName sys) (FName sys) → ∀ s, Agrees sys s c → ∀ ret,
      ∃ u s' n, guardLoop sys (run sys n) b.guards ret s = some (.ok (.inl (.data u)), s') ∧ Shows u a ∧ Moved s s'
  | .folds f xs v => f.Uses (VName sys) (FName sys) → ∀ s, Agrees sys s c → ∀ d, List.Forall₂ ItemIs d xs →
      ∃ x s', DoesE sys (rfold (callItem f.func) d) s x s' ∧ ItemIs x v ∧ Later s s'
  | .foldsAll f xss vs => f.Uses (VName sys) (FName sys) → ∀ s, Agrees sys s c → ∀ ds, List.Forall₂ (List.Forall₂ ItemIs) ds xss →
      ∃ d s', DoesE sys (ds.mapM (rfold (callItem f.func))) s d s' ∧ List.Forall₂ ItemIs d vs ∧ Later s s'
  | .maps f ps vs => f.Uses (VName sys) (FName sys) → ∀ s, Agrees sys s c → ∀ qs, List.Forall₂ PairIs qs ps →
      ∃ d s', DoesE sys (qs.mapM (callPair f.func)) s d s' ∧ List.Forall₂ ItemIs d vs ∧ Later s s'

/-- the results of a primitive function -/
theorem call_prim {hs : List (Handler (AVal V O) H)} {p : String} (hp : sys.prims p = some hs) {l r s x s'}
    (h : dispatch (fun h => h.call) (run sys 0) l r hs s = some (x, s')) : Evals sys (.call (.prim p) l r) s x s' := by
  refine ⟨1, ?_⟩
  show callStep sys (run sys 0) (.prim p) l r s = _
  simp only [callStep, hp]
  exact h

/-- the call of a derived function -/
theorem call_derived {op : String} (hop : op ≠ "←") {o : OpHandler (AVal V O) H} {os} (hos : sys.ops op = o :: os) (hd : o.dyadic = false)
    {f : Func (AVal V O)} {l r s s'} {p : Act (AVal V O) H (IVal (AVal V O))} {v}
    (heq : ∀ rec, dispatchOp (fun h LO RO => h.derived LO RO l r) rec (.fn f) none (o :: os) s = runAct rec p s)
    (h : Does sys p s v s') : Evals sys (.call (.der op (some (.fn f)) none) l r) s (.ok v) s' := by
  obtain ⟨n, hn⟩ := h
  refine ⟨n + 2, ?_⟩
  show callStep sys (run sys (n + 1)) (.der op (some (.fn f)) none) l r s = _
  simp only [callStep, derivedStep, hop, if_false, hos, hd]
  show dispatchOp (fun h LO RO => h.derived LO RO l r) (run sys (n + 1)) (.fn f) none (o :: os) s = _
  rw [heq]
  exact mono_runAct sys p n (n + 1) (by omega) _ _ hn

/-- the call of a lambda function -/
theorem call_lambda {body : List (Guard (AVal V O))} {l r s s'} {u} {n : Nat} (w : WF s)
    (h : guardLoop sys (run sys n) body (.data sys.empty) (enter s body l r) = some (.ok (.inl u), s')) (hm : Moved (enter s body l r) s') :
    ∃ s1, Evals sys (.call (.lam (some body)) l r) s (.ok u) s1 ∧ Later s s1 :=
  ⟨_, call_inl sys body l r s (.ok u) s' n h, later_of_enter w hm⟩

theorem tm_not_assign (t : Calc.Tm) : isAssignment (t.expr (V := V) (O := O)) = false := by
  cases t with
  | num n ns => cases ns <;> simp [Calc.Tm.expr, isAssignment]
  | var x => simp [Calc.Tm.expr, isAssignment]
  | mon f o r =>
    simp only [Calc.Tm.expr]
    cases o <;> cases f <;> simp [Calc.Op.func, Calc.Fn.func, isAssignment]
  | dya l f o r =>
    simp only [Calc.Tm.expr]
    cases o <;> cases f <;> simp [Calc.Op.func, Calc.Fn.func, isAssignment]

theorem tm_not_tail (t : Calc.Tm) : isTailCall (t.expr (V := V) (O := O)) = false := by
  cases t with
  | num n ns => cases ns <;> simp [Calc.Tm.expr, isTailCall]
  | var x => simp [Calc.Tm.expr, isTailCall]
  | mon f o r =>
    simp only [Calc.Tm.expr]
    cases o <;> cases f <;> simp [Calc.Op.func, Calc.Fn.func, isTailCall]
  | dya l f o r =>
    simp only [Calc.Tm.expr]
    cases o <;> cases f <;> simp [Calc.Op.func, Calc.Fn.func, isTailCall]

theorem func_not_assign (o : Calc.Op) (f : Calc.Fn) : (o.func (f.func (V := V) (O := O))).isAssignOp = false := by
  cases o <;> cases f <;> simp [Calc.Op.func, Calc.Fn.func, Func.isAssignOp]

theorem evalScalars_lits (hsc : ∀ x, sys.isScalar (.scalar x) = true) (n : Nat) (ns : List Int) (s : St (AVal V O) H) :
    evalScalars sys (run sys (n + 1)) (ns.map (fun k => .lit (numVal k))) s = some (.ok (ns.map (fun k => .data (numVal k))), s) := by
  induction ns with
  | nil => rfl
  | cons m ms ih =>
    simp only [List.map_cons, evalScalars, em_bind]
    have : run sys (n + 1) (.eval (.lit (numVal m))) s = some (.ok (.data (numVal m)), s) := rfl
    rw [this]
    have hm : sys.isScalar (numVal m) = true := hsc _
    simp only
    refine (congrFun (if_pos hm) s).trans ?_
    rw [em_bind, ih]
    rfl

theorem strand_items (ns : List Int) :
    (ns.map (fun n => (.data (.scalar (.num (.int n))) : IVal (AVal V O)))).mapM strandItem = some (ns.map (fun n => .num (.int n))) := by
  induction ns with
  | nil => rfl
  | cons n ns ih => rw [List.map_cons, List.mapM_cons, ih]; rfl

theorem strandKind_ints (n : Int) (ns : List Int) : e.strandKind ((n :: ns).map (fun n => (.num (.int n) : UItem V O))) = .int := by
  simp only [List.map_cons, StdEnv.strandKind]
  rw [if_pos]
  · rfl
  · simp only [List.all_eq_true, List.mem_map]
    rintro x ⟨m, _, rfl⟩
    rfl

theorem left_some {lv : Option (AVal V O)} {a : Arr Int} (h : ShowsLeft lv (some a)) : ∃ v, Shows v a ∧ lv = some v := by
  cases h with
  | some v _ hv => exact ⟨v, hv, rfl⟩

theorem folds_length {c : Calc.Scope} {f : Calc.Fn} : ∀ {xss : List (List Int)} {vs : List Int}, Calc.Holds c (.foldsAll f xss vs) →
    vs.length = xss.length := by
  intro xss
  induction xss with
  | nil => intro vs h; cases h; rfl
  | cons x xs ih =>
    intro vs h
    cases h with
    | all _ _ _ v _ vs h1 h2 => simp [ih h2]

theorem prefixes_items {d : List (UItem V O)} {l : List Int} (h : List.Forall₂ ItemIs d l) :
    List.Forall₂ (List.Forall₂ ItemIs) (itemPrefixes d) (Calc.prefixes l) := by
  unfold itemPrefixes Calc.prefixes
  rw [h.length_eq, List.forall₂_map_left_iff, List.forall₂_map_right_iff]
  exact List.forall₂_same.2 (fun i _ => List.forall₂_take _ h)

theorem flatMap_items {β : Type} {ls : List (List β)} {ks : List (List Int)} {R : β → Int → Prop} {g : List β → List (List β)}
    {g' : List Int → List (List Int)} (hg : ∀ d l, List.Forall₂ R d l → List.Forall₂ (List.Forall₂ R) (g d) (g' l))
    (h : List.Forall₂ (List.Forall₂ R) ls ks) : List.Forall₂ (List.Forall₂ R) (ls.flatMap g) (ks.flatMap g') := by
  induction h with
  | nil => exact .nil
  | cons h _ ih =>
    rw [List.flatMap_cons, List.flatMap_cons]
    exact List.rel_append (hg _ _ h) ih

/-- the number of prefixes of the rows is the number of elements -/
theorem prefixes_count (n m : Nat) (data : List Int) (hd : data.length = m * n) (hn : 0 < n) : ((Calc.rows n data).flatMap Calc.prefixes).length = data.length := by
  have hg : ∀ r ∈ Calc.rows n data, (Calc.prefixes r).length = n := by
    intro r hr
    unfold Calc.rows at hr
    obtain ⟨i, hi, rfl⟩ := List.mem_map.1 hr
    rw [List.mem_range, hd, Nat.mul_div_cancel _ hn] at hi
    have : i * n + n ≤ m * n := by
      calc i * n + n = (i + 1) * n := by rw [Nat.add_mul, Nat.one_mul]
        _ ≤ _ := Nat.mul_le_mul_right _ hi
    simp only [Calc.prefixes, List.length_map, List.length_range, List.length_take, List.length_drop]
    omega
  have hl : (Calc.rows n data).length = m := by
    unfold Calc.rows
    rw [List.length_map, List.length_range, hd, Nat.mul_div_cancel _ hn]
  rw [List.flatMap_def, flatten_length' _ n (by
    intro p hp
    obtain ⟨r, hr, rfl⟩ := List.mem_map.1 hp
    exact hg r hr), List.length_map, hl, hd]

theorem maps_length {c : Calc.Scope} {f : Calc.Fn} : ∀ {ps : List (Option Int × Int)} {vs : List Int}, Calc.Holds c (.maps f ps vs) →
    vs.length = ps.length := by
  intro ps
  induction ps with
  | nil => intro vs h; cases h; rfl
  | cons x xs ih =>
    intro vs h
    cases h with
    | pair _ _ _ _ v _ vs h1 h2 => simp [ih h2]

theorem func_not_lt {f : Calc.Fn} (h : f ≠ .prim .lt) : f.func (V := V) (O := O) ≠ .prim "<" := by
  cases f with
  | prim p => cases p <;> simp [Calc.Fn.func, Calc.Prim.char] at h ⊢ <;> decide
  | name f => simp [Calc.Fn.func]
  | lam b => simp [Calc.Fn.func]

theorem shows_single_of {x : UItem V O} {n : Int} (h : ItemIs x n) : Shows (.scalar x) (Calc.single n) := .scalar x n h

theorem realized (hs : StdSys e ident sys) (hna : isVarname sys "⍺" = some false) (hnw : isVarname sys "⍵" = some false)
    {c : Calc.Scope} {cl : Calc.Claim} (h : Calc.Holds c cl) : Realized sys c cl := by
  induction h with
  | num c n =>
    intro _ s hA
    exact ⟨numVal n, s, ⟨1, rfl⟩, .scalar _ n (.inl rfl), .refl hA.wf⟩
  | nums c n m ms =>
    intro _ s hA
    refine ⟨.arr .int ⟨[(n :: m :: ms).length], (n :: m :: ms).map (fun n => .num (.int n))⟩, s, ⟨2, ?_⟩, ?_, .refl hA.wf⟩
    · show evalStep sys (run sys 1) (Calc.Tm.expr (.num n (m :: ms))) s = _
      simp only [Calc.Tm.expr]
      show ((do
        let vs ← evalScalars sys (run sys 1) ((n :: m :: ms).map (fun k => .lit (numVal k)))
        runAct (run sys 1) (sys.strand vs)) : EM _ _ _) s = _
      rw [em_bind, evalScalars_lits sys hs.isScalar 0]
      simp only
      have h1 := hs.strand (run sys 1) (n :: m :: ms) s (by simp)
      refine h1.trans ?_
      unfold StdEnv.strandAct
      rw [strand_items]
      simp only [strandKind_ints, List.length_map]
      rfl
    · exact shows_vector _ (.inl rfl) (by simp) (by simp) (items_ints _)
  | var c x a hx =>
    intro hu s hA
    simp only [Calc.Tm.Uses] at hu
    obtain ⟨d, h1, h2⟩ := hA.vals x a hu hx
    refine ⟨d, s, ⟨1, ?_⟩, h2, .refl hA.wf⟩
    show evalStep sys (run sys 0) (Calc.Tm.expr (.var x)) s = _
    simp only [Calc.Tm.expr, evalStep, em_bind, getSt, h1]
    rfl
  | mon c f o r y a _ _ ih1 ih2 =>
    intro hu s hA
    simp only [Calc.Tm.Uses] at hu
    obtain ⟨u, s1, e1, v1, l1⟩ := ih1 hu.2 s hA
    obtain ⟨w, s2, e2, v2, l2⟩ := ih2 hu.1 s1 (hA.later l1) none u .none v1
    refine ⟨w, s2, ?_, v2, l1.trans l2⟩
    simp only [Calc.Tm.expr]
    exact (C46_monadic_order sys _ _ _ _ _).mpr (.inr ⟨_, s1, e1, e2⟩)
  | dya c l f o r x y a _ _ _ ih1 ih2 ih3 =>
    intro hu s hA
    simp only [Calc.Tm.Uses] at hu
    obtain ⟨u, s1, e1, v1, l1⟩ := ih1 hu.2.2 s hA
    obtain ⟨w, s2, e2, v2, l2⟩ := ih2 hu.1 s1 (hA.later l1)
    obtain ⟨z, s3, e3, v3, l3⟩ := ih3 hu.2.1 s2 ((hA.later l1).later l2) (some w) u (.some _ _ v2) v1
    refine ⟨z, s3, ?_, v3, (l1.trans l2).trans l3⟩
    simp only [Calc.Tm.expr]
    exact (C46_dyadic_order sys _ _ _ (func_not_assign o f) _ _ _).mpr (.inr ⟨_, s1, e1, .inr ⟨_, s2, e2, e3⟩⟩)
  | prim1 c p r a hap =>
    intro _ s hA lv rv hl hr
    cases hl
    obtain ⟨hs', h1, h2, _⟩ := hs.prim p
    obtain ⟨u, hu, hv⟩ := prim1_ok e hr hap
    refine ⟨u, s, ?_, hv, .refl hA.wf⟩
    simp only [Calc.Op.func, Calc.Fn.func]
    refine call_prim sys h1 ?_
    refine (h2 _ rv r s hr).trans ?_
    rw [hA.origin, hu]
    rfl
  | prim2 c p l r a hap =>
    intro _ s hA lv rv hl hr
    obtain ⟨lv, hl0, rfl⟩ := left_some hl
    replace hl := hl0
    obtain ⟨hs', h1, _, h2⟩ := hs.prim p
    obtain ⟨u, hu, hv⟩ := prim2_ok e hl hr hap
    refine ⟨u, s, ?_, hv, .refl hA.wf⟩
    simp only [Calc.Op.func, Calc.Fn.func]
    refine call_prim sys h1 ?_
    refine (h2 _ lv rv l r s hl hr).trans ?_
    rw [hu]
    rfl
  | name c f b l r a hb _ ih =>
    intro hu s hA lv rv hl hr
    simp only [Calc.Fn.Uses] at hu
    obtain ⟨h1, h2⟩ := hA.fns f b hu hb
    obtain ⟨u, s1, n, e1, v1, m1⟩ := ih h2 _ (hA.call b.guards hna hnw hl hr) (.data sys.empty)
    obtain ⟨s2, e2, l2⟩ := call_lambda sys hA.wf e1 m1
    refine ⟨u, s2, ?_, v1, l2⟩
    simp only [Calc.Op.func, Calc.Fn.func]
    obtain ⟨k, hk⟩ := e2
    refine ⟨k + 1, ?_⟩
    show callStep sys (run sys k) (.fvar f) _ _ s = _
    simp only [callStep, em_bind, getSt, h1]
    exact hk
  | lam c b l r a _ ih =>
    intro hu s hA lv rv hl hr
    simp only [Calc.Fn.Uses] at hu
    obtain ⟨u, s1, n, e1, v1, m1⟩ := ih hu _ (hA.call b.guards hna hnw hl hr) (.data sys.empty)
    obtain ⟨s2, e2, l2⟩ := call_lambda sys hA.wf e1 m1
    refine ⟨u, s2, ?_, v1, l2⟩
    simp only [Calc.Op.func, Calc.Fn.func]
    exact e2
  | swap1 c f r a _ ih =>
    intro hu s hA lv rv hl hr
    cases hl
    obtain ⟨u, s1, e1, v1, l1⟩ := ih hu s hA (some rv) rv (.some _ _ hr) hr
    obtain ⟨o, os, h1, h2, h3⟩ := hs.swap
    refine ⟨u, s1, ?_, v1, l1⟩
    exact call_derived sys (by decide) h1 h2 (fun rec => h3 rec _ none none rv r s .none hr) (does_call sys e1 (does_ret sys _ _))
  | swap2 c f l r a _ ih =>
    intro hu s hA lv rv hl hr
    obtain ⟨lv, hl0, rfl⟩ := left_some hl
    replace hl := hl0
    obtain ⟨u, s1, e1, v1, l1⟩ := ih hu s hA (some rv) lv (.some _ _ hr) hl
    obtain ⟨o, os, h1, h2, h3⟩ := hs.swap
    refine ⟨u, s1, ?_, v1, l1⟩
    exact call_derived sys (by decide) h1 h2 (fun rec => h3 rec _ (some lv) (some l) rv r s (.some _ _ hl) hr) (does_call sys e1 (does_ret sys _ _))
  | reduce0 c f n =>
    intro hu s hA lv rv hl hr
    cases hl
    obtain ⟨x, rfl, hx⟩ := shows_single hr
    obtain ⟨o, os, h1, h2, h3⟩ := hs.reduce
    refine ⟨.scalar x, s, ?_, hr, .refl hA.wf⟩
    refine call_derived sys (by decide) h1 h2 (fun rec => h3 rec _ _ _ s hr) ?_
    exact does_bind sys (doesE_pure sys _ s) (does_ret sys _ _)
  | reduce1 c f xs v _ ih =>
    intro hu s hA lv rv hl hr
    cases hl
    obtain ⟨o, os, h1, h2, h3⟩ := hs.reduce
    have hr0 := hr
    generalize ha : Calc.vector xs = a at hr
    cases hr with
    | scalar x n => simp [Calc.vector] at ha
    | arr k d a _ _ hne _ hd =>
      subst ha
      obtain ⟨x, s1, e1, v1, l1⟩ := ih hu s hA d hd
      refine ⟨.scalar x, s1, ?_, .scalar _ _ v1, l1⟩
      refine call_derived sys (by decide) h1 h2 (fun rec => h3 rec _ _ _ s hr0) ?_
      have hl : d.length = xs.length := hd.length_eq
      simp only [Calc.vector, ← hl]
      refine reduce_vector e ident sys _ k d ?_ e1
      rintro rfl
      exact hne (List.length_eq_zero_iff.1 hl.symm)
  | reduce c f ls n data vs hls hh ih =>
    intro hu s hA lv rv hl hr
    cases hl
    obtain ⟨o, os, h1, h2, h3⟩ := hs.reduce
    have hr0 := hr
    generalize ha : (⟨ls ++ [n], data⟩ : Arr Int) = a at hr
    cases hr with
    | scalar x n => simp at ha
    | arr k d a _ hwf hne hk hd =>
      subst ha
      have hdl : data.length = size ls * n := by rw [hwf]; simp [size_append, size]
      have hw' : (⟨ls ++ [n], d⟩ : Arr (UItem V O)).WF := by
        show d.length = _
        rw [hd.length_eq]; exact hwf
      have hne' : d ≠ [] := by
        rintro rfl
        exact hne (List.length_eq_zero_iff.1 hd.length_eq.symm)
      have hpos : 0 < data.length := List.length_pos_iff.2 hne
      rcases Nat.lt_or_ge n 2 with hn | hn
      · have hn1 : n = 1 := by
          rcases n with _ | _ | n
          · rw [Nat.mul_zero] at hdl; omega
          · rfl
          · omega
        subst hn1
        rw [rows_groups, groups_one] at hh
        have := folds_ones hh
        subst this
        refine ⟨.arr k ⟨ls, d⟩, s, ?_, ?_, .refl hA.wf⟩
        · refine call_derived sys (by decide) h1 h2 (fun rec => h3 rec _ _ _ s hr0) ?_
          exact reduce_ones e ident sys _ k ls hls d hne' hw' s
        · exact .arr k d ⟨ls, vs⟩ hls (by show vs.length = _; rw [hdl]; simp) hne hk hd
      · rw [rows_groups] at ih
        obtain ⟨ds, s1, e1, v1, l1⟩ := ih hu s hA _ (groups_items hd n)
        refine ⟨.arr (e.kind ds) ⟨ls, ds⟩, s1, ?_, ?_, l1⟩
        · refine call_derived sys (by decide) h1 h2 (fun rec => h3 rec _ _ _ s hr0) ?_
          exact reduce_rows e ident sys _ k ls hls n hn d hw' e1
        · have hlen := folds_length hh
          rw [rows_groups] at hlen
          simp only [rowGroups, List.length_map, List.length_range] at hlen
          rw [hdl, Nat.mul_div_cancel _ (by omega)] at hlen
          have hvs : vs ≠ [] := by
            rintro rfl
            simp only [List.length_nil] at hlen
            rw [← hlen, Nat.zero_mul] at hdl
            omega
          exact shows_arr e hls hlen hvs v1
  | scan0 c f n =>
    intro hu s hA lv rv hl hr
    cases hl
    obtain ⟨x, rfl, hx⟩ := shows_single hr
    obtain ⟨o, os, h1, h2, h3⟩ := hs.scan
    refine ⟨.scalar x, s, ?_, hr, .refl hA.wf⟩
    refine call_derived sys (by decide) h1 h2 (fun rec => h3 rec _ _ _ s hr) ?_
    exact does_bind sys (doesE_pure sys _ s) (does_ret sys _ _)
  | scan c f ls n data vs hh ih =>
    intro hu s hA lv rv hl hr
    cases hl
    obtain ⟨o, os, h1, h2, h3⟩ := hs.scan
    have hr0 := hr
    generalize ha : (⟨ls ++ [n], data⟩ : Arr Int) = a at hr
    cases hr with
    | scalar x n => simp at ha
    | arr k d a _ hwf hne hk hd =>
      subst ha
      have hdl : data.length = size ls * n := by rw [hwf]; simp [size_append, size]
      have hw' : (⟨ls ++ [n], d⟩ : Arr (UItem V O)).WF := by
        show d.length = _
        rw [hd.length_eq]; exact hwf
      have hne' : d ≠ [] := by
        rintro rfl
        exact hne (List.length_eq_zero_iff.1 hd.length_eq.symm)
      have hpos : 0 < data.length := List.length_pos_iff.2 hne
      have hn : 0 < n := by
        rcases Nat.eq_zero_or_pos n with h | h
        · subst h; omega
        · exact h
      rw [rows_groups] at ih
      obtain ⟨ds, s1, e1, v1, l1⟩ := ih hu s hA _ (flatMap_items (fun _ _ => prefixes_items) (groups_items hd n))
      refine ⟨.arr (e.kind ds) ⟨ls ++ [n], ds⟩, s1, ?_, ?_, l1⟩
      · refine call_derived sys (by decide) h1 h2 (fun rec => h3 rec _ _ _ s hr0) ?_
        exact scan_rows e sys _ k ls n d hne' hw' e1
      · have hlen := (folds_length hh).trans (prefixes_count n (size ls) data hdl hn)
        refine shows_arr e (by simp) ?_ ?_ v1
        · rw [hlen, hdl]; simp [size_append, size]
        · rintro rfl
          simp only [List.length_nil] at hlen
          omega
  | each0 c f n a hf _ ih =>
    intro hu s hA lv rv hl hr
    have hl0 := hl
    cases hl
    obtain ⟨x, rfl, hx⟩ := shows_single hr
    obtain ⟨u, s1, e1, v1, l1⟩ := ih hu s hA none _ .none hr
    obtain ⟨o, os, h1, h2, h3⟩ := hs.each
    refine ⟨u, s1, ?_, v1, l1⟩
    refine call_derived sys (by decide) h1 h2 (fun rec => h3 rec _ none none _ _ s (func_not_lt hf) .none hr) ?_
    exact does_bind sys (callVal_does sys _ none _ _ e1) (does_ret sys _ _)
  | each1 c f r vs hf hrs hh ih =>
    intro hu s hA lv rv hl hr
    cases hl
    obtain ⟨o, os, h1, h2, h3⟩ := hs.each
    have hr0 := hr
    cases hr with
    | scalar x n => exact absurd rfl hrs
    | arr k d a _ hwf hne hk hd =>
      have hw' : (⟨r.shape, d⟩ : Arr (UItem V O)).WF := by
        show d.length = _
        rw [hd.length_eq]; exact hwf
      have hne' : d ≠ [] := by
        rintro rfl
        exact hne (List.length_eq_zero_iff.1 hd.length_eq.symm)
      obtain ⟨ds, s1, e1, v1, l1⟩ := ih hu s hA (d.map (fun y => (none, y))) (by
        rw [List.forall₂_map_left_iff, List.forall₂_map_right_iff]
        exact hd.imp (fun x n h => ⟨.none, h⟩))
      refine ⟨.arr (e.kind ds) ⟨r.shape, ds⟩, s1, ?_, ?_, l1⟩
      · refine call_derived sys (by decide) h1 h2 (fun rec => h3 rec _ none none _ _ s (func_not_lt hf) .none hr0) ?_
        exact each_none e sys _ k ⟨r.shape, d⟩ hw' hrs hne' e1
      · have hlen := maps_length hh
        rw [List.length_map] at hlen
        refine shows_arr e hrs (hlen.trans hwf) ?_ v1
        rintro rfl
        exact hne (List.length_eq_zero_iff.1 hlen.symm)
  | each00 c f m n a hf _ ih =>
    intro hu s hA lv rv hl hr
    obtain ⟨lv, hl0, rfl⟩ := left_some hl
    obtain ⟨x, rfl, hx⟩ := shows_single hr
    obtain ⟨y, rfl, hy⟩ := shows_single hl0
    obtain ⟨u, s1, e1, v1, l1⟩ := ih hu s hA _ _ hl hr
    obtain ⟨o, os, h1, h2, h3⟩ := hs.each
    refine ⟨u, s1, ?_, v1, l1⟩
    refine call_derived sys (by decide) h1 h2 (fun rec => h3 rec _ (some (.scalar y)) _ _ _ s (func_not_lt hf) hl hr) ?_
    exact does_bind sys (callVal_does sys _ (some (.scalar y)) _ _ e1) (does_ret sys _ _)
  | each2 c f l r vs hf hlr hrs hh ih =>
    intro hu s hA lv rv hl hr
    obtain ⟨lv, hl0, rfl⟩ := left_some hl
    obtain ⟨o, os, h1, h2, h3⟩ := hs.each
    have hr0 := hr
    have hl1 := hl0
    cases hl0 with
    | scalar x n => exact absurd hlr.symm hrs
    | arr kl dl al _ hwfl hnel hkl hdl =>
      cases hr with
      | scalar x n => exact absurd rfl hrs
      | arr k d a _ hwf hne hk hd =>
        have hw' : (⟨r.shape, d⟩ : Arr (UItem V O)).WF := by
          show d.length = _
          rw [hd.length_eq]; exact hwf
        have hwl' : (⟨l.shape, dl⟩ : Arr (UItem V O)).WF := by
          show dl.length = _
          rw [hdl.length_eq]; exact hwfl
        have hne' : dl ≠ [] := by
          rintro rfl
          exact hnel (List.length_eq_zero_iff.1 hdl.length_eq.symm)
        obtain ⟨ds, s1, e1, v1, l1⟩ := ih hu s hA (List.zipWith (fun x y => (some x, y)) dl d) (by
          clear hl1 hr0 hl hh ih hnel hwfl hwf hne hw' hwl' hne'
          revert hd
          generalize l.data = la at hdl ⊢
          generalize r.data = ra
          intro hd
          induction hdl generalizing d ra with
          | nil => exact .nil
          | cons h1 _ ih' =>
            cases hd with
            | nil => exact .nil
            | cons h2 h3 => exact .cons ⟨.some h1, h2⟩ (ih' _ _ h3))
        refine ⟨.arr (e.kind ds) ⟨r.shape, ds⟩, s1, ?_, ?_, l1⟩
        · refine call_derived sys (by decide) h1 h2 (fun rec => h3 rec _ (some _) _ _ _ s (func_not_lt hf) hl hr0) ?_
          exact each_both e sys _ kl k ⟨l.shape, dl⟩ ⟨r.shape, d⟩ hwl' hw' hlr (by rw [hlr]; exact hrs) hne' e1
        · have hlen := maps_length hh
          have hll : l.data.length = r.data.length := by rw [hwfl, hwf, hlr]
          rw [List.length_zipWith, hll, Nat.min_self] at hlen
          refine shows_arr e hrs (hlen.trans hwf) ?_ v1
          rintro rfl
          exact hne (List.length_eq_zero_iff.1 hlen.symm)
  | eachL c f n r vs hf hrs hh ih =>
    intro hu s hA lv rv hl hr
    obtain ⟨lv, hl0, rfl⟩ := left_some hl
    obtain ⟨x, rfl, hx⟩ := shows_single hl0
    obtain ⟨o, os, h1, h2, h3⟩ := hs.each
    have hr0 := hr
    cases hr with
    | scalar x n => exact absurd rfl hrs
    | arr k d a _ hwf hne hk hd =>
      have hw' : (⟨r.shape, d⟩ : Arr (UItem V O)).WF := by
        show d.length = _
        rw [hd.length_eq]; exact hwf
      have hne' : d ≠ [] := by
        rintro rfl
        exact hne (List.length_eq_zero_iff.1 hd.length_eq.symm)
      obtain ⟨ds, s1, e1, v1, l1⟩ := ih hu s hA (d.map (fun y => (some x, y))) (by
        rw [List.forall₂_map_left_iff, List.forall₂_map_right_iff]
        exact hd.imp (fun y n h => ⟨.some hx, h⟩))
      refine ⟨.arr (e.kind ds) ⟨r.shape, ds⟩, s1, ?_, ?_, l1⟩
      · refine call_derived sys (by decide) h1 h2 (fun rec => h3 rec _ (some (.scalar x)) _ _ _ s (func_not_lt hf) hl hr0) ?_
        exact each_left e sys _ k ⟨r.shape, d⟩ x hw' hrs hne' e1
      · have hlen := maps_length hh
        rw [List.length_map] at hlen
        refine shows_arr e hrs (hlen.trans hwf) ?_ v1
        rintro rfl
        exact hne (List.length_eq_zero_iff.1 hlen.symm)
  | eachR c f l n vs hf hls hh ih =>
    intro hu s hA lv rv hl hr
    obtain ⟨lv, hl0, rfl⟩ := left_some hl
    obtain ⟨y, rfl, hy⟩ := shows_single hr
    obtain ⟨o, os, h1, h2, h3⟩ := hs.each
    cases hl0 with
    | scalar x n => exact absurd rfl hls
    | arr k d a _ hwf hne hk hd =>
      have hw' : (⟨l.shape, d⟩ : Arr (UItem V O)).WF := by
        show d.length = _
        rw [hd.length_eq]; exact hwf
      have hne' : d ≠ [] := by
        rintro rfl
        exact hne (List.length_eq_zero_iff.1 hd.length_eq.symm)
      obtain ⟨ds, s1, e1, v1, l1⟩ := ih hu s hA (d.map (fun x => (some x, y))) (by
        rw [List.forall₂_map_left_iff, List.forall₂_map_right_iff]
        exact hd.imp (fun x n h => ⟨.some h, hy⟩))
      refine ⟨.arr (e.kind ds) ⟨l.shape, ds⟩, s1, ?_, ?_, l1⟩
      · refine call_derived sys (by decide) h1 h2 (fun rec => h3 rec _ (some _) _ _ _ s (func_not_lt hf) hl hr) ?_
        exact each_right e sys _ k ⟨l.shape, d⟩ y hw' hls hne' e1
      · have hlen := maps_length hh
        rw [List.length_map] at hlen
        refine shows_arr e hls (hlen.trans hwf) ?_ v1
        rintro rfl
        exact hne (List.length_eq_zero_iff.1 hlen.symm)
  | ret c t a _ ih =>
    intro hu s hA ret
    simp only [Calc.Body.Uses] at hu
    obtain ⟨u, s1, ⟨n, e1⟩, v1, l1⟩ := ih hu s hA
    refine ⟨u, s1, n, ?_, v1, l1.moved⟩
    simp only [Calc.Body.guards]
    rw [guardLoop_cons sys _ _ _ _ (by simp [Guard.cond])
      (fun e' h' => by simp only [Guard.e, Option.some.injEq] at h'; rw [← h']; exact tm_not_tail t)]
    simp only [em_bind, guardEval, Guard.cond, Guard.e, evalOpd, e1, isAssignment?, tm_not_assign]
    rfl
  | set c x t b y a _ _ ih1 ih2 =>
    intro hu s hA ret
    simp only [Calc.Body.Uses] at hu
    obtain ⟨hx, hxa, ht, hb⟩ := hu
    obtain ⟨u, s1, e1, v1, l1⟩ := ih1 ht s hA
    have hA1 := hA.later l1
    have e2 := eval_assign sys x (.var x) t.expr (.inl rfl) hx.1 hxa s s1 (.data u) e1 (fun n => hs.copy _ u y s1 v1) hx.2.2
    obtain ⟨n2, e2⟩ := e2
    obtain ⟨w, s3, n3, e3, v3, m3⟩ := ih2 hb _ (hA1.set hx v1) (.data u)
    refine ⟨w, s3, max n2 n3, ?_, v3, (l1.moved.trans (moved_bindVar hA1.wf x _)).trans m3⟩
    simp only [Calc.Body.guards]
    rw [guardLoop_cons sys _ _ _ _ (by simp [Guard.e, isAssignment?, assignExpr, isAssignment])
      (fun e' h' => by simp only [Guard.e, Option.some.injEq] at h'; rw [← h']; rfl)]
    have e2' := le_run sys (Nat.le_max_left n2 n3) _ _ _ e2
    have e3' := le_guardLoop (fun j => le_run sys (Nat.le_max_right n2 n3) j) sys _ _ _ _ e3
    have ha : isAssignment (assignExpr x (t.expr (V := V) (O := O))) = true := rfl
    simp only [em_bind, guardEval, Guard.cond, Guard.e, evalOpd, isAssignment?, ha, if_true]
    rw [show run sys (max n2 n3) (.eval (assignExpr x t.expr)) s = _ from e2']
    exact e3'
  | yes c g t b a _ _ ih1 ih2 =>
    intro hu s hA ret
    simp only [Calc.Body.Uses] at hu
    obtain ⟨u, s1, ⟨n1, e1⟩, v1, l1⟩ := ih1 hu.1 s hA
    obtain ⟨w, s2, ⟨n2, e2⟩, v2, l2⟩ := ih2 hu.2.1 s1 (hA.later l1)
    refine ⟨w, s2, max n1 n2, ?_, v2, (l1.trans l2).moved⟩
    obtain ⟨x, rfl, hx⟩ := shows_single v1
    have hb : (IVal.data (.scalar x)).toBool sys = some true := by
      show sys.toBool (.scalar x) = _
      rw [hs.toBool x 1 hx]
      rcases hx with rfl | ⟨b, rfl, hb⟩
      · rfl
      · cases b <;> simp at hb ⊢; rfl
    simp only [Calc.Body.guards]
    rw [guardLoop_cons sys _ _ _ _ (by simp [Guard.cond])
      (fun e' h' => by simp only [Guard.e, Option.some.injEq] at h'; rw [← h']; exact tm_not_tail t)]
    have e1' := le_run sys (Nat.le_max_left n1 n2) _ _ _ e1
    have e2' := le_run sys (Nat.le_max_right n1 n2) _ _ _ e2
    simp only [em_bind, guardEval, Guard.cond, Guard.e, evalOpd, e1', e2', hb, isAssignment?, tm_not_assign]
    rfl
  | no c g t b a _ _ ih1 ih2 =>
    intro hu s hA ret
    simp only [Calc.Body.Uses] at hu
    obtain ⟨u, s1, ⟨n1, e1⟩, v1, l1⟩ := ih1 hu.1 s hA
    obtain ⟨w, s2, n2, e2, v2, m2⟩ := ih2 hu.2.2 s1 (hA.later l1) ret
    refine ⟨w, s2, max n1 n2, ?_, v2, l1.moved.trans m2⟩
    obtain ⟨x, rfl, hx⟩ := shows_single v1
    have hb : (IVal.data (.scalar x)).toBool sys = some false := by
      show sys.toBool (.scalar x) = _
      rw [hs.toBool x 0 hx]
      rcases hx with rfl | ⟨b, rfl, hb⟩
      · rfl
      · cases b <;> simp at hb ⊢; rfl
    simp only [Calc.Body.guards]
    rw [guardLoop_cons sys _ _ _ _ (by simp [Guard.cond])
      (fun e' h' => by simp only [Guard.e, Option.some.injEq] at h'; rw [← h']; exact tm_not_tail t)]
    have e1' := le_run sys (Nat.le_max_left n1 n2) _ _ _ e1
    have e2' := le_guardLoop (fun j => le_run sys (Nat.le_max_right n1 n2) j) sys _ _ _ _ e2
    simp only [em_bind, guardEval, Guard.cond, e1', hb]
    exact e2'
  | last c f x =>
    intro hu s hA d hd
    obtain ⟨y, rfl, hy⟩ : ∃ y, d = [y] ∧ ItemIs y x := by
      cases hd with
      | cons h1 h2 => cases h2; exact ⟨_, rfl, h1⟩
    exact ⟨y, s, doesE_pure sys y s, hy, .refl hA.wf⟩
  | step c f x xs v w hne _ _ ih1 ih2 =>
    intro hu s hA d hd
    cases hd with
    | @cons y _ d' _ hy hd' =>
      obtain ⟨z, s1, e1, v1, l1⟩ := ih1 hu s hA d' hd'
      obtain ⟨u, s2, e2, v2, l2⟩ := ih2 hu s1 (hA.later l1) (some (.scalar y)) (.scalar z) (.some _ _ (.scalar _ _ hy)) (.scalar _ _ v1)
      obtain ⟨q, rfl, hq⟩ := shows_single v2
      refine ⟨q, s2, ?_, hq, l1.trans l2⟩
      have hd0 : d' ≠ [] := by
        rintro rfl
        cases hd'
        exact hne rfl
      obtain ⟨y', ys', rfl⟩ := List.exists_cons_of_ne_nil hd0
      rw [rfold]
      refine doesE_bind sys e1 ?_
      exact does_call sys e2 (does_ret sys _ _)
  | none c f =>
    intro hu s hA ds hds
    cases hds
    exact ⟨[], s, doesE_pure sys _ s, .nil, .refl hA.wf⟩
  | all c f xs v xss vs _ _ ih1 ih2 =>
    intro hu s hA ds hds
    cases hds with
    | @cons d _ ds' _ hd hds' =>
      obtain ⟨x, s1, e1, v1, l1⟩ := ih1 hu s hA d hd
      obtain ⟨xs', s2, e2, v2, l2⟩ := ih2 hu s1 (hA.later l1) ds' hds'
      refine ⟨x :: xs', s2, ?_, .cons v1 v2, l1.trans l2⟩
      rw [mapM_cons']
      exact doesE_bind sys e1 (doesE_bind sys e2 (doesE_pure sys _ _))
  | done c f =>
    intro hu s hA qs hqs
    cases hqs
    exact ⟨[], s, doesE_pure sys _ s, .nil, .refl hA.wf⟩
  | pair c f l y v ps vs _ _ ih1 ih2 =>
    intro hu s hA qs hqs
    cases hqs with
    | @cons q _ qs' _ hq hqs' =>
      obtain ⟨ql, qy⟩ := q
      obtain ⟨hq1, hq2⟩ := hq
      have hleft : ShowsLeft (ql.map .scalar) (l.map Calc.single) := by
        cases hq1 with
        | none => exact .none
        | some h => exact .some _ _ (shows_single_of h)
      obtain ⟨u, s1, e1, v1, l1⟩ := ih1 hu s hA _ _ hleft (shows_single_of hq2)
      obtain ⟨z, rfl, hz⟩ := shows_single v1
      obtain ⟨d, s2, e2, v2, l2⟩ := ih2 hu s1 (hA.later l1) qs' hqs'
      refine ⟨z :: d, s2, ?_, .cons hz v2, l1.trans l2⟩
      rw [mapM_cons']
      exact doesE_bind sys (callPair_does sys _ ql qy z e1) (doesE_bind sys e2 (doesE_pure sys _ _))

end Iv

import Verif.Lemmas.Fuel
/-
C43, C44, C45, C46 (evaluation order), C53: calls and environments, variables, guards, order of evaluation, dispatch.

All theorems hold for every system of primitives and operators (`Sys`), every program and every initial state.
-/
namespace Iv
variable {D H : Type}

/-! ### Specification -/

/-- The evaluation of `j` (an expression, or the call of a function) in state `s` ends with the outcome `r` (a value or an error)
in state `s'`. -/
def Evals (sys : Sys D H) (j : Job D) (s : St D H) (r : Except Fail (IVal D)) (s' : St D H) : Prop :=
  ∃ n, run sys n j s = some (r, s')

/-- The innermost environment with the name, seen from `e`, is `e'`. -/
inductive Resolves (envs : List (Env D)) (n : String) : Nat → Nat → Prop
  | here (e : Nat) : Binds envs e n → Resolves envs n e e
  | up (e p e' : Nat) (en : Env D) : ¬ Binds envs e n → envs[e]? = some en → en.parent = some p → Resolves envs n p e' →
      Resolves envs n e e'

/-- what the environment `e` holds under a name: nothing, nil, or a value -/
def slot (envs : List (Env D)) (e : Nat) (n : String) : Option (Option (IVal D)) :=
  (envs[e]?).bind (fun en => mapGet en.vars n)

/-- a name that is neither a system variable nor a name in a package -/
def Ordinary (n : String) : Prop := n ≠ "⎕IO" ∧ n ≠ "⎕PP" ∧ n ≠ "⎕" ∧ n.toList.contains '→' = false

/-- The state of a new interpreter (apl/apl.go:12-28). -/
def St.init (h : H) : St D H := ⟨[⟨none, []⟩], 0, 1, 0, [], h⟩

/-! ### Evaluation has one outcome -/

theorem evals_det (sys : Sys D H) (j : Job D) {s : St D H} {r1 s1 r2 s2} (h1 : Evals sys j s r1 s1) (h2 : Evals sys j s r2 s2) :
    r1 = r2 ∧ s1 = s2 := yields_det (m := fun n => run sys n j) (Mono.run sys j) h1 h2

theorem evals_step (sys : Sys D H) (j : Job D) (s : St D H) (r s') :
    Evals sys j s r s' ↔ Yields (fun n => stepTask sys (run sys n) j) s r s' := by
  constructor
  · rintro ⟨n, h⟩
    cases n with
    | zero => simp [run, noFuel] at h
    | succ n => exact ⟨n, h⟩
  · rintro ⟨n, h⟩; exact ⟨n + 1, h⟩

/-! ### C43: function calls restore the environment -/

/-- After any evaluation, also a failing one, the current environment is the one before, no environment has another parent,
no name disappears, and names appear only in the current environment. -/
theorem C43_restored (sys : Sys D H) (j : Job D) (s s' : St D H) (r) (h : Evals sys j s r s') :
    s'.cur = s.cur ∧ s.envs.length ≤ s'.envs.length ∧
    (∀ i, i < s.envs.length → (s'.envs[i]?).map Env.parent = (s.envs[i]?).map Env.parent) ∧
    (∀ i n, i < s.envs.length → Binds s.envs i n → Binds s'.envs i n) ∧
    (∀ i n, i < s.envs.length → i ≠ s.cur → Binds s'.envs i n → Binds s.envs i n) := by
  obtain ⟨n, h⟩ := h
  have k := keeps_run sys n j s r s' h
  exact ⟨k.cur, k.len, k.parent, k.names, k.fixed⟩

theorem evals_lam_frame (sys : Sys D H) (body l r) (s s' : St D H) (x) (h : Evals sys (.call (.lam body) l r) s x s') :
    ∀ i n, i < s.envs.length → (Binds s'.envs i n ↔ Binds s.envs i n) := by
  rw [evals_step] at h
  obtain ⟨k, h⟩ := h
  cases body with
  | none =>
    simp only [stepTask, callStep, em_pure, Option.some.injEq, Prod.mk.injEq] at h
    intro i n _; rw [← h.2]
  | some b =>
    simp only [stepTask, callStep, inNewEnv] at h
    split at h
    · simp at h
    · rename_i r1 s1 he
      simp only [Option.some.injEq, Prod.mk.injEq] at h
      intro i n hi
      rw [← h.2]
      exact (keeps_frame _ s s1 (keeps_run sys k _ _ _ _ he)).2 i n hi

/-- A call of a lambda, whatever it does, adds no names to the environments that existed before. -/
theorem C43_lambda_names (sys : Sys D H) (body l r) (s s' : St D H) (x) (h : Evals sys (.call (.lam body) l r) s x s')
    (i : Nat) (n : String) (hi : i < s.envs.length) : Binds s'.envs i n ↔ Binds s.envs i n :=
  evals_lam_frame sys body l r s s' x h i n hi

/-- After a call of a lambda every name resolves to the same environment as before: names assigned in the body are not visible,
and nothing visible before is hidden. -/
theorem C43_lambda_scope (sys : Sys D H) (body l r) (s s' : St D H) (x) (h : Evals sys (.call (.lam body) l r) s x s')
    (w : WF s) (n : String) (e : Nat) : Resolves s'.envs n s'.cur e ↔ Resolves s.envs n s.cur e := by
  have nm := evals_lam_frame sys body l r s s' x h
  obtain ⟨hc, hl, hp, _, _⟩ := C43_restored sys _ s s' x h
  rw [hc]
  have key : ∀ i, i < s.envs.length → (Resolves s'.envs n i e ↔ Resolves s.envs n i e) := by
    intro i
    induction i using Nat.strongRecOn with
    | _ i ih =>
      intro hi
      have hpi := hp i hi
      constructor
      · intro hr
        cases hr with
        | here _ hb => exact .here _ ((nm _ n hi).mp hb)
        | up _ p _ en hb hg hpar hr =>
          rw [hg] at hpi
          cases hs : s.envs[i]? with
          | none => rw [hs] at hpi; simp at hpi
          | some en0 =>
            rw [hs] at hpi
            simp only [Option.map_some, Option.some.injEq] at hpi
            have hp0 : en0.parent = some p := hpi.symm.trans hpar
            have hlt := w.parent i en0 p hs hp0
            exact .up i p e en0 (fun hb' => hb ((nm i n hi).mpr hb')) hs hp0 ((ih p hlt (by omega)).mp hr)
      · intro hr
        cases hr with
        | here _ hb => exact .here _ ((nm _ n hi).mpr hb)
        | up _ p _ en hb hg hpar hr =>
          rw [hg] at hpi
          cases hs : s'.envs[i]? with
          | none => rw [hs] at hpi; simp at hpi
          | some en0 =>
            rw [hs] at hpi
            simp only [Option.map_some, Option.some.injEq] at hpi
            have hlt := w.parent i en p hg hpar
            exact .up i p e en0 (fun hb' => hb ((nm i n hi).mp hb')) hs (hpi.trans hpar) ((ih p hlt (by omega)).mpr hr)
  exact key s.cur w.cur

/-! ### C44: variables -/

/-- The chain of environments is well founded in every reachable state: a new interpreter has one environment, and every
evaluation keeps the property that parents are older than their children. -/
theorem C44_chain (sys : Sys D H) :
    (∀ h : H, WF (St.init h : St D H)) ∧
    (∀ (j : Job D) (s s' : St D H) r, Evals sys j s r s' → WF s → WF s') := by
  refine ⟨fun h => ⟨by simp [St.init], ?_⟩, ?_⟩
  · intro i en p hi hp
    cases i with
    | zero => simp only [St.init, List.getElem?_cons_zero, Option.some.injEq] at hi; rw [← hi] at hp; simp at hp
    | succ i => simp [St.init] at hi
  · rintro j s s' r ⟨n, h⟩ w
    exact (keeps_run sys n j s r s' h).wf w

theorem resolves_fun (envs : List (Env D)) (n : String) {e a b : Nat} (h1 : Resolves envs n e a) (h2 : Resolves envs n e b) :
    a = b := by
  induction h1 with
  | here e hb =>
    cases h2 with
    | here => rfl
    | up _ _ _ _ hn => exact absurd hb hn
  | up e p a en hn hg hp _ ih =>
    cases h2 with
    | here _ hb => exact absurd hb hn
    | up _ p' _ en' _ hg' hp' h =>
      rw [hg] at hg'
      simp only [Option.some.injEq] at hg'
      subst hg'
      rw [hp] at hp'
      simp only [Option.some.injEq] at hp'
      subst hp'
      exact ih h

theorem binds_get (envs : List (Env D)) (e : Nat) (n : String) (en : Env D) (h : envs[e]? = some en) :
    Binds envs e n ↔ (mapGet en.vars n).isSome := by
  unfold Binds
  constructor
  · rintro ⟨en', h', hb⟩; rw [h] at h'; simp only [Option.some.injEq] at h'; rw [h']; exact hb
  · intro hb; exact ⟨en, h, hb⟩

theorem findEnv_iff (envs : List (Env D)) (hpar : ∀ (i : Nat) (en : Env D) (p : Nat), envs[i]? = some en → en.parent = some p → p < i)
    (n : String) (fuel e e' : Nat) (hf : e < fuel) : findEnv envs n fuel e = some e' ↔ Resolves envs n e e' := by
  induction fuel generalizing e with
  | zero => omega
  | succ k ih =>
    unfold findEnv
    cases hg : envs[e]? with
    | none =>
      constructor
      · intro h; simp at h
      · intro h
        cases h with
        | here _ hb => obtain ⟨en, h', _⟩ := hb; rw [hg] at h'; simp at h'
        | up _ _ _ en _ h' => rw [hg] at h'; simp at h'
    | some en =>
      have hb := binds_get envs e n en hg
      cases hm : mapGet en.vars n with
      | some v =>
        rw [hm] at hb
        simp only [hm]
        constructor
        · intro h; simp only [Option.some.injEq] at h; subst h; exact .here _ (hb.mpr rfl)
        · intro h; simp only [Option.some.injEq]; exact resolves_fun envs n (.here _ (hb.mpr rfl)) h
      | none =>
        rw [hm] at hb
        have hb' : ¬ Binds envs e n := fun h => by simpa using hb.mp h
        cases hp : en.parent with
        | none =>
          simp only [hm, hp]
          constructor
          · intro h; simp at h
          · intro h
            cases h with
            | here _ h => exact absurd h hb'
            | up _ p _ en' _ hg' hp' _ =>
              rw [hg] at hg'; simp only [Option.some.injEq] at hg'; subst hg'; rw [hp] at hp'; simp at hp'
        | some p =>
          have hlt := hpar e en p hg hp
          simp only [hm, hp]
          rw [ih p (by omega)]
          constructor
          · intro h; exact .up e p e' en hb' hg hp h
          · intro h
            cases h with
            | here _ h => exact absurd h hb'
            | up _ p' _ en' _ hg' hp' h =>
              rw [hg] at hg'; simp only [Option.some.injEq] at hg'; subst hg'; rw [hp] at hp'
              simp only [Option.some.injEq] at hp'; subst hp'; exact h

theorem lookupEnv_ordinary (sys : Sys D H) (s : St D H) (n : String) (ho : Ordinary n) :
    lookupEnv sys s n = match findEnv s.envs n s.envs.length s.cur with
      | none => (none, none)
      | some e => (envGet s.envs e n, some e) := by
  unfold lookupEnv
  rw [if_neg ho.1, if_neg ho.2.1, if_neg (by rw [ho.2.2.2]; simp)]
  rfl

theorem envGet_slot (envs : List (Env D)) (e : Nat) (n : String) : envGet envs e n = (slot envs e n).join := by
  unfold envGet slot
  cases envs[e]? <;> rfl

/-- A lookup returns the value of the innermost environment that has the name. -/
theorem C44_lookup (sys : Sys D H) (s : St D H) (w : WF s) (n : String) (ho : Ordinary n) (e : Nat)
    (h : Resolves s.envs n s.cur e) : lookupEnv sys s n = ((slot s.envs e n).join, some e) := by
  rw [lookupEnv_ordinary sys s n ho, (findEnv_iff s.envs w.parent n _ _ _ w.cur).mpr h, ← envGet_slot]

/-- A name that no environment in the chain has is not found. -/
theorem C44_lookup_none (sys : Sys D H) (s : St D H) (w : WF s) (n : String) (ho : Ordinary n)
    (h : ∀ e, ¬ Resolves s.envs n s.cur e) : lookupEnv sys s n = (none, none) := by
  rw [lookupEnv_ordinary sys s n ho]
  cases hf : findEnv s.envs n s.envs.length s.cur with
  | none => rfl
  | some e => exact absurd ((findEnv_iff s.envs w.parent n _ _ _ w.cur).mp hf) (h e)

/-- A variable evaluates to its innermost binding, without any effect. -/
theorem C44_variable (sys : Sys D H) (s : St D H) (w : WF s) (n : String) (ho : Ordinary n) (e : Nat) (v : IVal D)
    (h : Resolves s.envs n s.cur e) (hv : slot s.envs e n = some (some v)) (r s') :
    Evals sys (.eval (.var n)) s r s' ↔ r = .ok v ∧ s' = s := by
  rw [evals_step]
  have : ∀ k, stepTask sys (run sys k) (.eval (.var n)) s = some (.ok v, s) := by
    intro k
    simp only [stepTask, evalStep, em_bind, getSt]
    rw [C44_lookup sys s w n ho e h, hv]
    rfl
  constructor
  · rintro ⟨k, hk⟩
    replace hk := (this k).symm.trans hk
    simp only [Option.some.injEq, Prod.mk.injEq] at hk
    exact ⟨hk.1.symm, hk.2.symm⟩
  · rintro ⟨rfl, rfl⟩; exact ⟨0, this 0⟩

/-- The value of a name without a binding is the name itself (apl/var.go:173-178). -/
theorem C44_undeclared (sys : Sys D H) (s : St D H) (w : WF s) (n : String) (ho : Ordinary n)
    (h : ∀ e, ¬ Resolves s.envs n s.cur e) (r s') : Evals sys (.eval (.var n)) s r s' ↔ r = .ok (.ident n) ∧ s' = s := by
  rw [evals_step]
  have : ∀ k, stepTask sys (run sys k) (.eval (.var n)) s = some (.ok (.ident n), s) := by
    intro k
    simp only [stepTask, evalStep, em_bind, getSt]
    rw [C44_lookup_none sys s w n ho h]
    rfl
  constructor
  · rintro ⟨k, hk⟩
    replace hk := (this k).symm.trans hk
    simp only [Option.some.injEq, Prod.mk.injEq] at hk
    exact ⟨hk.1.symm, hk.2.symm⟩
  · rintro ⟨rfl, rfl⟩; exact ⟨0, this 0⟩

theorem slot_putVar (envs : List (Env D)) (e : Nat) (n : String) (v) (he : e < envs.length) (i : Nat) (m : String) :
    slot (putVar envs e n v) i m = if i = e ∧ m = n then some v else slot envs i m := by
  unfold slot
  rw [putVar_get]
  by_cases hi : i = e
  · subst hi
    rw [List.getElem?_eq_getElem he]
    simp only [Option.map_some, if_true, Option.bind_some, mapGet_set_name]
    by_cases hm : n = m
    · subst hm; simp
    · have : ¬ m = n := fun h => hm h.symm
      simp [hm, this]
  · simp only [hi, if_false, false_and]
    cases envs[i]? <;> rfl

theorem assignEnv_ordinary (sys : Sys D H) (n : String) (v : IVal D) (env : Option Nat) (s : St D H) (ho : Ordinary n)
    (hn : isVarname sys n = some v.isFn) (ha : n = "⍺" → (envGet s.envs (env.getD s.cur) "⍺") = none) :
    assignEnv sys n v env s = some (.ok (), { s with envs := putVar s.envs (env.getD s.cur) n (some v) }) := by
  unfold assignEnv
  rw [hn]
  simp only
  rw [if_neg (by rw [ho.2.2.2]; simp), if_neg ho.2.2.1, if_neg ho.1, if_neg ho.2.1]
  have h1 : ¬ ((v.isFn && !v.isFn) = true) := by cases v.isFn <;> simp
  have h2 : ¬ ((!v.isFn && v.isFn) = true) := by cases v.isFn <;> simp
  rw [if_neg h1, if_neg h2, if_neg]
  rintro ⟨h3, h4⟩
  rw [ha h3] at h4
  simp at h4

/-- `X←e` without indexes and modifier, for a variable or a function name: the right side is evaluated, its value copied; the copy
is bound in the current environment under that name, and no other binding of any environment changes.  The value of the assignment is
the value of the right side. -/
theorem C44_assign (sys : Sys D H) (n : String) (t rhs : Expr D) (ht : t = .var n ∨ t = .fn (.fvar n)) (ho : Ordinary n) (hα : n ≠ "⍺")
    (sel : Bool) (hsel : sel = true → ∀ m, rhs ≠ .var m)
    (s s1 s2 : St D H) (v v' : IVal D) (h1 : Evals sys (.eval rhs) s (.ok v) s1) (w : WF s)
    (h2 : Yields (fun k => runAct (run sys k) (sys.copy v)) s1 (.ok v') s2)
    (hn : isVarname sys n = some v'.isFn) :
    ∃ s', Evals sys (.eval (.app (.der "←" (some t) none) none rhs sel)) s (.ok v) s' ∧
      s'.cur = s2.cur ∧ s'.envs.length = s2.envs.length ∧
      (∀ i m, slot s'.envs i m = if i = s.cur ∧ m = n then some (some v') else slot s2.envs i m) := by
  have hlt : s2.cur < s2.envs.length := by
    obtain ⟨k1, h1'⟩ := h1
    obtain ⟨k2, h2'⟩ := h2
    have w1 := (keeps_run sys k1 _ _ _ _ h1').wf w
    exact ((evolves_runAct (fun j => evolves_run sys k2 j) _ _ _ _ h2').keeps.wf w1).cur
  have hc : s2.cur = s.cur := by
    obtain ⟨k1, h1'⟩ := h1
    obtain ⟨k2, h2'⟩ := h2
    rw [(evolves_runAct (fun j => evolves_run sys k2 j) _ _ _ _ h2').keeps.cur, (keeps_run sys k1 _ _ _ _ h1').cur]
  refine ⟨{ s2 with envs := putVar s2.envs s2.cur n (some v') }, ?_, rfl, putVar_length _ _ _ _, ?_⟩
  · obtain ⟨k1, h1'⟩ := h1
    obtain ⟨k2, h2'⟩ := h2
    refine ⟨max k1 k2 + 2, ?_⟩
    have e1 : run sys (max k1 k2 + 1) (.eval rhs) s = some (.ok v, s1) := le_run sys (by omega) _ _ _ h1'
    have e2 : runAct (run sys (max k1 k2)) (sys.copy v) s1 = some (.ok v', s2) :=
      mono_runAct sys _ k2 _ (by omega) _ _ h2'
    have hb : run sys (max k1 k2 + 1) (.call (.der "←" (some t) none) none v) s1 =
        some (.ok v, { s2 with envs := putVar s2.envs s2.cur n (some v') }) := by
      have ht' : evalTarget (run sys (max k1 k2)) t = pure (.one n none) := by
        rcases ht with rfl | rfl
        · simp only [evalTarget, targetName]
        · rfl
      simp only [run, stepTask, callStep, derivedStep, if_true, ht', em_bind, em_pure, assignStep, assignScalar, e2]
      rw [assignEnv_ordinary sys n v' none s2 ho hn (fun h => absurd h hα)]
      rfl
    have happ : appStep sys (run sys (max k1 k2 + 1)) (.der "←" (some t) none) none rhs sel s =
        run sys (max k1 k2 + 1) (.call (.der "←" (some t) none) none v) s1 := by
      unfold appStep
      rw [em_bind, e1]
      simp only [em_bind, em_pure]
      split
      · exact absurd rfl (hsel rfl _)
      · rfl
    show stepTask sys (run sys (max k1 k2 + 1)) _ s = _
    simp only [stepTask, evalStep]
    rw [happ, hb]
  · intro i m
    rw [← hc]
    exact slot_putVar s2.envs s2.cur n (some v') hlt i m

/-- `X f←e`: the modifier is called with the innermost value of the variable and the value of the right side; the copy of the result
replaces the value in the environment where the variable was found, and no other binding changes. -/
theorem C44_modified (sys : Sys D H) (n : String) (f : Func D) (rhs : Expr D) (ho : Ordinary n) (hα : n ≠ "⍺")
    (sel : Bool) (hsel : sel = true → ∀ m, rhs ≠ .var m)
    (s s1 s2 s3 : St D H) (w : WF s) (v x y z : IVal D) (e : Nat)
    (h1 : Evals sys (.eval rhs) s (.ok v) s1)
    (hr : Resolves s1.envs n s1.cur e) (hx : slot s1.envs e n = some (some x))
    (h2 : Evals sys (.call f (some x) v) s1 (.ok y) s2)
    (h3 : Yields (fun k => runAct (run sys k) (sys.copy y)) s2 (.ok z) s3)
    (hn : isVarname sys n = some z.isFn) :
    ∃ s', Evals sys (.eval (.app (.der "←" (some (.fn f)) none) (some (.var n)) rhs sel)) s (.ok v) s' ∧
      s'.cur = s3.cur ∧ s'.envs.length = s3.envs.length ∧
      (∀ i m, slot s'.envs i m = if i = e ∧ m = n then some (some z) else slot s3.envs i m) := by
  obtain ⟨k1, h1'⟩ := h1
  obtain ⟨k2, h2'⟩ := h2
  obtain ⟨k3, h3'⟩ := h3
  have K1 := keeps_run sys k1 _ _ _ _ h1'
  have K2 := keeps_run sys k2 _ _ _ _ h2'
  have K3 := (evolves_runAct (fun j => evolves_run sys k3 j) _ _ _ _ h3').keeps
  have w1 := K1.wf w
  have hb : Binds s1.envs e n := by
    unfold slot at hx
    cases hg : s1.envs[e]? with
    | none => rw [hg] at hx; simp at hx
    | some en => rw [hg] at hx; simp only [Option.bind_some] at hx; exact ⟨en, hg, by rw [hx]; rfl⟩
  have hlt : e < s3.envs.length := by
    obtain ⟨en, hg, _⟩ := binds_keeps K3 (binds_keeps K2 hb)
    exact (List.getElem?_eq_some_iff.mp hg).1
  refine ⟨{ s3 with envs := putVar s3.envs e n (some z) }, ?_, rfl, putVar_length _ _ _ _, ?_⟩
  · generalize hk : max k1 (max k2 k3) = k
    refine ⟨k + 2, ?_⟩
    have e1 : run sys (k + 1) (.eval rhs) s = some (.ok v, s1) := le_run sys (by omega) _ _ _ h1'
    have e2 : run sys k (.call f (some x) v) s1 = some (.ok y, s2) := le_run sys (by omega) _ _ _ h2'
    have e3 : runAct (run sys k) (sys.copy y) s2 = some (.ok z, s3) := mono_runAct sys _ k3 _ (by omega) _ _ h3'
    have hl : lookupEnv sys s1 n = (some x, some e) := by rw [C44_lookup sys s1 w1 n ho e hr, hx]; rfl
    have hc : run sys (k + 1) (.call (.der "←" (some (.fn f)) none) (some (.target (.var n))) v) s1 =
        some (.ok v, { s3 with envs := putVar s3.envs e n (some z) }) := by
      simp only [run, stepTask, callStep, derivedStep, if_true, evalTarget, targetName, em_bind, em_pure, assignStep, assignScalar,
        assignFound, getSt, hl, assignVal, e2, assignBack, e3]
      rw [assignEnv_ordinary sys n z (some e) s3 ho hn (fun h => absurd h hα)]
      rfl
    have happ : appStep sys (run sys (k + 1)) (.der "←" (some (.fn f)) none) (some (.var n)) rhs sel s =
        run sys (k + 1) (.call (.der "←" (some (.fn f)) none) (some (.target (.var n))) v) s1 := by
      unfold appStep
      rw [em_bind, e1]
      simp only [em_bind, em_pure, Func.isAssignOp, beq_self_eq_true, if_true]
      split
      · exact absurd rfl (hsel rfl _)
      · rfl
    show stepTask sys (run sys (k + 1)) _ s = _
    simp only [stepTask, evalStep]
    rw [happ, hc]
  · exact slot_putVar s3.envs e n (some z) hlt

/-- Assigning ⍺ gives a default value: a left argument that was given is kept. -/
theorem C44_default_left (sys : Sys D H) (v x : IVal D) (s : St D H) (hv : isVarname sys "⍺" = some false)
    (hf : v.isFn = false) :
    (slot s.envs s.cur "⍺" = some (some x) → assignEnv sys "⍺" v none s = some (.ok (), s)) ∧
    ((slot s.envs s.cur "⍺").join = none → assignEnv sys "⍺" v none s =
      some (.ok (), { s with envs := putVar s.envs s.cur "⍺" (some v) })) := by
  have ho : Ordinary "⍺" := ⟨by decide, by decide, by decide, by decide⟩
  constructor
  · intro hx
    unfold assignEnv
    rw [hv]
    simp only
    rw [if_neg (by rw [ho.2.2.2]; simp), if_neg ho.2.2.1, if_neg ho.1, if_neg ho.2.1, hf, if_neg (by simp), if_neg (by simp), if_pos]
    refine ⟨trivial, ?_⟩
    simp only [Option.getD_none]
    rw [envGet_slot, hx]; rfl
  · intro hx
    exact assignEnv_ordinary sys "⍺" v none s ho (by rw [hv, hf]) (fun _ => by rw [Option.getD_none, envGet_slot]; exact hx)

/-- Names are checked: a function needs a lower case name, other values an upper case name; other names are rejected, and nothing
changes. -/
theorem C44_name_rules (sys : Sys D H) (n : String) (v : IVal D) (s : St D H) (ho : Ordinary n)
    (h : isVarname sys n = none ∨ isVarname sys n = some (!v.isFn)) (env : Option Nat) :
    assignEnv sys n v env s = some (.error .err, s) := by
  unfold assignEnv
  rcases h with h | h
  · rw [h]
  · rw [h]
    simp only
    rw [if_neg (by rw [ho.2.2.2]; simp), if_neg ho.2.2.1, if_neg ho.1, if_neg ho.2.1]
    cases v.isFn <;> simp

/-- ⎕IO becomes 0 or 1 and nothing else; a value that is no truth value is rejected. -/
theorem C44_origin (sys : Sys D H) (v : IVal D) (s : St D H) (env : Option Nat) (isf : Bool) (hn : isVarname sys "⎕IO" = some isf) :
    (∀ b, v.toBool sys = some b → assignEnv sys "⎕IO" v env s = some (.ok (), { s with origin := if b then 1 else 0 })) ∧
    (v.toBool sys = none → assignEnv sys "⎕IO" v env s = some (.error .err, s)) := by
  have h1 : ¬ ("⎕IO".toList.contains '→' = true) := by decide
  have h2 : "⎕IO" ≠ "⎕" := by decide
  constructor
  · intro b hb
    unfold assignEnv
    rw [hn]
    simp only
    rw [if_neg h1, if_neg h2, if_pos trivial, hb]
  · intro hb
    unfold assignEnv
    rw [hn]
    simp only
    rw [if_neg h1, if_neg h2, if_pos trivial, hb]

/-- Everything an evaluation does to the environments: it binds names in the current environment, gives new values to existing
bindings in the chain of environments (modified and indexed assignment), and does the same in new environments, whose parent is the
current one, for the time of a call. -/
theorem C44_writes (sys : Sys D H) (j : Job D) (s s' : St D H) (r) (h : Evals sys j s r s') : Evolves s s' := by
  obtain ⟨n, h⟩ := h
  exact evolves_run sys n j s r s' h

/-- In particular environments that are not in the chain of the current one are not changed at all. -/
theorem C44_unreachable (sys : Sys D H) (j : Job D) (s s' : St D H) (r) (h : Evals sys j s r s') (w : WF s) (i : Nat)
    (hi : i < s.envs.length) (hn : ¬ OnChain s.envs s.cur i) : s'.envs[i]? = s.envs[i]? :=
  evolves_unreachable (C44_writes sys j s s' r h) w i hi hn

end Iv

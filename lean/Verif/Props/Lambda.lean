import Verif.Props.Interp
/-
C45: guards.
-/
namespace Iv
variable {D H : Type}

/-! ### Specification -/

/-- the expression is a call of ∇ as the outermost function -/
def isTailCall : Expr D → Bool
  | .app .self _ _ _ => true
  | _ => false

/-- The guards are passed one after the other without a result: a guard is passed if its condition is false, or if its expression
is an assignment that is evaluated (the condition being true or missing).  `v` is the value that is the result if the end of the body
is reached: the one of the last assignment. -/
inductive Passes (sys : Sys D H) : List (Guard D) → IVal D → St D H → IVal D → St D H → Prop
  | nil (v s) : Passes sys [] v s v s
  | condFalse (c e gs v s x s1 v' s') : (∀ e', e = some e' → isTailCall e' = false) →
      Evals sys (.eval c) s (.ok x) s1 → x.toBool sys = some false →
      Passes sys gs v s1 v' s' → Passes sys (.mk (some c) e :: gs) v s v' s'
  | assign (e gs v s x s1 v' s') : isAssignment e = true → Evals sys (.eval e) s (.ok x) s1 →
      Passes sys gs x s1 v' s' → Passes sys (.mk none (some e) :: gs) v s v' s'
  | condAssign (c e gs v s x s1 y s2 v' s') : isAssignment e = true → Evals sys (.eval c) s (.ok x) s1 →
      x.toBool sys = some true → Evals sys (.eval e) s1 (.ok y) s2 →
      Passes sys gs y s2 v' s' → Passes sys (.mk (some c) (some e) :: gs) v s v' s'

/-- The state in which the body of a lambda starts: a new environment with ∇, ⍺ and ⍵. -/
def enter (s : St D H) (body : List (Guard D)) (l : Option (IVal D)) (r : IVal D) : St D H :=
  { s with
    envs := s.envs ++ [⟨some s.cur, [("∇", some (.fn (.lam (some body)))), ("⍺", l), ("⍵", some r)]⟩]
    cur := s.envs.length }

/-- The body of a lambda called in state `s` ends with the outcome `x` in the state `s'`; afterwards the environment is the one of
the caller. -/
def Returns (sys : Sys D H) (body : List (Guard D)) (l : Option (IVal D)) (r : IVal D) (s : St D H)
    (x : Except Fail (IVal D)) (s' : St D H) : Prop :=
  Evals sys (.call (.lam (some body)) l r) s x { s' with cur := s.cur }

/-! ### Proofs -/

theorem assign_not_tail (e : Expr D) (h : isAssignment e = true) : isTailCall e = false := by
  cases e with
  | app f l r sel => cases f <;> first | rfl | (simp [isAssignment] at h)
  | _ => rfl

/-- the match of `guardLoop` on the expression -/
theorem guardLoop_cons (sys : Sys D H) (rec : Rec D H) (g : Guard D) (rest : List (Guard D)) (ret : IVal D)
    (h1 : (g.cond.isNone && !rest.isEmpty && !isAssignment? g.e) = false) (h2 : ∀ e', g.e = some e' → isTailCall e' = false) :
    guardLoop sys rec (g :: rest) ret = (do
      let v ← guardEval sys rec g
      match v with
      | none => guardLoop sys rec rest ret
      | some v => if isAssignment? g.e then guardLoop sys rec rest v else return .inl v) := by
  rw [guardLoop]
  simp only [h1]
  rw [if_neg (by simp)]
  split
  · rename_i l r sel he
    have := h2 _ he
    simp [isTailCall] at this
  · rfl

theorem guard_passes (sys : Sys D H) (gs : List (Guard D)) (v s v' s') (h : Passes sys gs v s v' s') :
    ∃ N, ∀ k, N ≤ k → ∀ rest, guardLoop sys (run sys k) (gs ++ rest) v s = guardLoop sys (run sys k) rest v' s' := by
  induction h with
  | nil v s => exact ⟨0, fun _ _ _ => rfl⟩
  | condFalse c e gs v s x s1 v' s' ht hc hx _ ih =>
    obtain ⟨N, ih⟩ := ih
    obtain ⟨n, hc⟩ := hc
    refine ⟨max N n, fun k hk rest => ?_⟩
    have e1 := le_run sys (show n ≤ k by omega) _ _ _ hc
    rw [List.cons_append, guardLoop_cons sys _ (.mk (some c) e) _ _ (by simp [Guard.cond]) ht]
    simp only [em_bind, guardEval, Guard.cond, e1, hx, em_pure]
    exact ih k (by omega) rest
  | assign e gs v s x s1 v' s' ha he _ ih =>
    obtain ⟨N, ih⟩ := ih
    obtain ⟨n, he⟩ := he
    refine ⟨max N n, fun k hk rest => ?_⟩
    have e1 := le_run sys (show n ≤ k by omega) _ _ _ he
    rw [List.cons_append, guardLoop_cons sys _ _ _ _ (by simp [Guard.e, isAssignment?, ha])
      (fun e' h' => by simp only [Guard.e, Option.some.injEq] at h'; rw [← h']; exact assign_not_tail e ha)]
    simp only [em_bind, guardEval, Guard.cond, Guard.e, evalOpd, e1, em_pure, isAssignment?, ha, if_true]
    exact ih k (by omega) rest
  | condAssign c e gs v s x s1 y s2 v' s' ha hc hx he _ ih =>
    obtain ⟨N, ih⟩ := ih
    obtain ⟨n, he⟩ := he
    obtain ⟨m, hc⟩ := hc
    refine ⟨max N (max n m), fun k hk rest => ?_⟩
    have e1 := le_run sys (show n ≤ k by omega) _ _ _ he
    have e2 := le_run sys (show m ≤ k by omega) _ _ _ hc
    rw [List.cons_append, guardLoop_cons sys _ _ _ _ (by simp [Guard.cond])
      (fun e' h' => by simp only [Guard.e, Option.some.injEq] at h'; rw [← h']; exact assign_not_tail e ha)]
    simp only [em_bind, guardEval, Guard.cond, Guard.e, evalOpd, e1, e2, hx, em_pure, isAssignment?, ha, if_true]
    exact ih k (by omega) rest

/-- the arguments are bound -/
theorem bind_args (s : St D H) (body : List (Guard D)) (l : Option (IVal D)) (r : IVal D) :
    putVar (putVar (s.envs ++ [(⟨some s.cur, [("∇", some (.fn (.lam (some body))))]⟩ : Env D)]) s.envs.length "⍺" l)
      s.envs.length "⍵" (some r) = (enter s body l r).envs := by
  apply List.ext_getElem?
  intro i
  rw [putVar_get, putVar_get]
  simp only [enter]
  by_cases hi : i < s.envs.length
  · rw [List.getElem?_append_left hi, List.getElem?_append_left hi]
    have : ¬ i = s.envs.length := by omega
    cases s.envs[i]? <;> simp [this]
  · rw [List.getElem?_append_right (by omega), List.getElem?_append_right (by omega)]
    by_cases h0 : i = s.envs.length
    · subst h0
      simp only [Nat.sub_self, List.getElem?_cons_zero, Option.map_some, if_true]
      rfl
    · rw [List.getElem?_eq_none (by simp; omega), List.getElem?_eq_none (by simp; omega)]
      rfl

/-- a call of a lambda is the run of its guards in the new environment -/
theorem call_of_guards (sys : Sys D H) (body l r) (s : St D H) (x s') (k : Nat)
    (h : loopStep sys (run sys k) body l r
      { s with envs := s.envs ++ [⟨some s.cur, [("∇", some (.fn (.lam (some body))))]⟩], cur := s.envs.length } = some (x, s')) :
    Returns sys body l r s x s' := by
  refine ⟨k + 2, ?_⟩
  show stepTask sys (run sys (k + 1)) (.call (.lam (some body)) l r) s = _
  simp only [stepTask, callStep, inNewEnv]
  have h' : run sys (k + 1) (.loop body l r)
      { s with envs := s.envs ++ [⟨some s.cur, [("∇", some (.fn (.lam (some body))))]⟩], cur := s.envs.length } = some (x, s') := h
  rw [h']

theorem loop_enter (sys : Sys D H) (rec : Rec D H) (body l r) (s : St D H) :
    loopStep sys rec body l r
      { s with envs := s.envs ++ [⟨some s.cur, [("∇", some (.fn (.lam (some body))))]⟩], cur := s.envs.length } =
    ((do
      let v ← guardLoop sys rec body (.data sys.empty)
      match v with
      | .inl v => return v
      | .inr (tl, tr) => do
        let r' ← rec (.eval tr)
        let l' ← (match tl with
          | none => pure l
          | some e => do let v ← rec (.eval e); return some v)
        rec (.loop body l' r')) : EM D H (IVal D)) (enter s body l r) := by
  unfold loopStep
  rw [em_bind]
  simp only [modSt, bind_args]
  rfl

theorem call_inl (sys : Sys D H) (body l r) (s : St D H) (x : Except Fail (IVal D)) (s') (k : Nat)
    (h : guardLoop sys (run sys k) body (.data sys.empty) (enter s body l r) = some (x.map .inl, s')) :
    Returns sys body l r s x s' := by
  apply call_of_guards sys body l r s x s' k
  rw [loop_enter, em_bind, h]
  cases x <;> rfl

/-! ### C45 -/

/-- The first guard whose condition is true gives the result of the call: the outcome of its expression (a value, or an error).
What follows in the body has no influence: it is not evaluated. -/
theorem C45_first_true (sys : Sys D H) (pre post : List (Guard D)) (c e : Expr D) (l : Option (IVal D)) (r : IVal D)
    (s s1 s2 s3 : St D H) (v x : IVal D) (y : Except Fail (IVal D))
    (ha : isAssignment e = false) (ht : isTailCall e = false)
    (hp : Passes sys pre (.data sys.empty) (enter s (pre ++ .mk (some c) (some e) :: post) l r) v s1)
    (hc : Evals sys (.eval c) s1 (.ok x) s2) (hx : x.toBool sys = some true)
    (he : Evals sys (.eval e) s2 y s3) :
    Returns sys (pre ++ .mk (some c) (some e) :: post) l r s y s3 := by
  obtain ⟨N, hN⟩ := guard_passes sys _ _ _ _ _ hp
  obtain ⟨n, hc⟩ := hc
  obtain ⟨m, he⟩ := he
  generalize hk : max N (max n m) = k
  apply call_inl sys _ l r s y s3 k
  rw [hN k (by omega), guardLoop_cons sys _ _ _ _ (by simp [Guard.cond])
    (fun e' h' => by simp only [Guard.e, Option.some.injEq] at h'; rw [← h']; exact ht)]
  have e1 := le_run sys (show n ≤ k by omega) _ _ _ hc
  have e2 := le_run sys (show m ≤ k by omega) _ _ _ he
  simp only [em_bind, guardEval, Guard.cond, Guard.e, evalOpd, e1, e2, hx, em_pure, isAssignment?, ha]
  cases y <;> rfl

/-- An expression without a condition at the end of the body gives the result if no guard before did. -/
theorem C45_last (sys : Sys D H) (pre : List (Guard D)) (e : Expr D) (l : Option (IVal D)) (r : IVal D)
    (s s1 s2 : St D H) (v : IVal D) (y : Except Fail (IVal D)) (ha : isAssignment e = false) (ht : isTailCall e = false)
    (hp : Passes sys pre (.data sys.empty) (enter s (pre ++ [.mk none (some e)]) l r) v s1)
    (he : Evals sys (.eval e) s1 y s2) :
    Returns sys (pre ++ [.mk none (some e)]) l r s y s2 := by
  obtain ⟨N, hN⟩ := guard_passes sys _ _ _ _ _ hp
  obtain ⟨m, he⟩ := he
  generalize hk : max N m = k
  apply call_inl sys _ l r s y s2 k
  rw [hN k (by omega), guardLoop_cons sys _ _ _ _ (by simp [Guard.cond])
    (fun e' h' => by simp only [Guard.e, Option.some.injEq] at h'; rw [← h']; exact ht)]
  have e2 := le_run sys (show m ≤ k by omega) _ _ _ he
  simp only [em_bind, guardEval, Guard.cond, Guard.e, evalOpd, e2, isAssignment?, ha]
  cases y <;> rfl

/-- If all guards are passed, the result is the value of the last assignment, or the empty array. -/
theorem C45_end (sys : Sys D H) (body : List (Guard D)) (l : Option (IVal D)) (r : IVal D) (s s1 : St D H) (v : IVal D)
    (hp : Passes sys body (.data sys.empty) (enter s body l r) v s1) : Returns sys body l r s (.ok v) s1 := by
  obtain ⟨N, hN⟩ := guard_passes sys _ _ _ _ _ hp
  apply call_inl sys _ l r s (.ok v) s1 N
  have := hN N (Nat.le_refl _) []
  rw [List.append_nil] at this
  rw [this]; rfl

/-- A condition that is no truth value is an error; nothing else is evaluated. -/
theorem C45_not_bool (sys : Sys D H) (pre post : List (Guard D)) (c : Expr D) (e : Option (Expr D)) (l : Option (IVal D)) (r : IVal D)
    (s s1 s2 : St D H) (v x : IVal D) (ht : ∀ e', e = some e' → isTailCall e' = false)
    (hp : Passes sys pre (.data sys.empty) (enter s (pre ++ .mk (some c) e :: post) l r) v s1)
    (hc : Evals sys (.eval c) s1 (.ok x) s2) (hx : x.toBool sys = none) :
    Returns sys (pre ++ .mk (some c) e :: post) l r s (.error .err) s2 := by
  obtain ⟨N, hN⟩ := guard_passes sys _ _ _ _ _ hp
  obtain ⟨n, hc⟩ := hc
  generalize hk : max N n = k
  apply call_inl sys _ l r s _ s2 k
  rw [hN k (by omega), guardLoop_cons sys _ (.mk (some c) e) _ _ (by simp [Guard.cond]) ht]
  have e1 := le_run sys (show n ≤ k by omega) _ _ _ hc
  simp only [em_bind, guardEval, Guard.cond, e1, hx, fail]
  rfl

/-- The failure of a condition is the failure of the call. -/
theorem C45_cond_fails (sys : Sys D H) (pre post : List (Guard D)) (c : Expr D) (e : Option (Expr D)) (l : Option (IVal D)) (r : IVal D)
    (s s1 s2 : St D H) (v : IVal D) (x : Fail) (ht : ∀ e', e = some e' → isTailCall e' = false)
    (hp : Passes sys pre (.data sys.empty) (enter s (pre ++ .mk (some c) e :: post) l r) v s1)
    (hc : Evals sys (.eval c) s1 (.error x) s2) :
    Returns sys (pre ++ .mk (some c) e :: post) l r s (.error x) s2 := by
  obtain ⟨N, hN⟩ := guard_passes sys _ _ _ _ _ hp
  obtain ⟨n, hc⟩ := hc
  generalize hk : max N n = k
  apply call_inl sys _ l r s _ s2 k
  rw [hN k (by omega), guardLoop_cons sys _ (.mk (some c) e) _ _ (by simp [Guard.cond]) ht]
  have e1 := le_run sys (show n ≤ k by omega) _ _ _ hc
  simp only [em_bind, guardEval, Guard.cond, e1]
  rfl

/-- An expression without a condition that is no assignment and not the last of the body is rejected when it is reached. -/
theorem C45_unreachable_code (sys : Sys D H) (pre post : List (Guard D)) (e : Expr D) (l : Option (IVal D)) (r : IVal D)
    (s s1 : St D H) (v : IVal D) (ha : isAssignment e = false) (hpost : post ≠ [])
    (hp : Passes sys pre (.data sys.empty) (enter s (pre ++ .mk none (some e) :: post) l r) v s1) :
    Returns sys (pre ++ .mk none (some e) :: post) l r s (.error .err) s1 := by
  obtain ⟨N, hN⟩ := guard_passes sys _ _ _ _ _ hp
  apply call_inl sys _ l r s _ s1 N
  rw [hN N (Nat.le_refl _), guardLoop]
  have : post.isEmpty = false := by cases post <;> simp_all
  have hc : ((none : Option (Expr D)).isNone && !post.isEmpty && !isAssignment e) = true := by simp [this, ha]
  exact (congrFun (if_pos hc) s1).trans rfl

/-- A tail call: at the end of the body, `l∇r` evaluates `r`, then `l`, and starts the body again with these as ⍵ and ⍺, in the same
environment. -/
theorem C45_tail_call (sys : Sys D H) (pre : List (Guard D)) (tl tr : Expr D) (sel : Bool) (l : Option (IVal D)) (r : IVal D)
    (s s1 s2 s3 s4 : St D H) (v r' l' : IVal D) (y : Except Fail (IVal D))
    (hp : Passes sys pre (.data sys.empty) (enter s (pre ++ [.mk none (some (.app .self (some tl) tr sel))]) l r) v s1)
    (hr : Evals sys (.eval tr) s1 (.ok r') s2) (hl : Evals sys (.eval tl) s2 (.ok l') s3)
    (hy : Evals sys (.loop (pre ++ [.mk none (some (.app .self (some tl) tr sel))]) (some l') r') s3 y s4) :
    Returns sys (pre ++ [.mk none (some (.app .self (some tl) tr sel))]) l r s y s4 := by
  obtain ⟨N, hN⟩ := guard_passes sys _ _ _ _ _ hp
  obtain ⟨n1, hr⟩ := hr
  obtain ⟨n2, hl⟩ := hl
  obtain ⟨n3, hy⟩ := hy
  generalize hk : max N (max n1 (max n2 n3)) = k
  apply call_of_guards sys _ l r s y s4 k
  have e1 := le_run sys (show n1 ≤ k by omega) _ _ _ hr
  have e2 := le_run sys (show n2 ≤ k by omega) _ _ _ hl
  have e3 := le_run sys (show n3 ≤ k by omega) _ _ _ hy
  rw [loop_enter, em_bind, hN k (by omega)]
  have : guardLoop sys (run sys k) [.mk none (some (.app .self (some tl) tr sel))] v s1 =
      some (.ok (.inr (some tl, tr)), s1) := rfl
  rw [this]
  simp only [em_bind, em_pure, e1, e2]
  exact e3

/-- The condition of a guarded call of ∇ is not evaluated: `{c:∇⍵⋄e}` runs forever, whatever the condition is.  (The guard is
looked at only after the test for a tail call, apl/lambda.go:103-109.) -/
theorem C45_tail_guard_ignored (sys : Sys D H) (c e : Expr D) (d : D) (sel : Bool) (l : Option (IVal D)) (r : IVal D)
    (s : St D H) (x s') :
    ¬ Evals sys (.call (.lam (some [.mk (some c) (some (.app .self none (.lit d) sel)), .mk none (some e)])) l r) s x s' := by
  have key : ∀ n l r s, run sys n
      (.loop [.mk (some c) (some (.app .self none (.lit d) sel)), .mk none (some e)] l r) s = none := by
    intro n
    induction n with
    | zero => intro l r s; rfl
    | succ n ih =>
      intro l r s
      show loopStep sys (run sys n) _ l r s = none
      unfold loopStep
      rw [em_bind]
      simp only [modSt]
      rw [em_bind]
      have : ∀ s, guardLoop sys (run sys n) [.mk (some c) (some (.app .self none (.lit d) sel)), .mk none (some e)]
          (.data sys.empty) s = some (.ok (.inr (none, .lit d)), s) := fun _ => rfl
      rw [this]
      simp only
      rw [em_bind]
      cases n with
      | zero => rfl
      | succ n =>
        have : ∀ s, run sys (n + 1) (.eval (.lit d)) s = some (.ok (.data d), s) := fun _ => rfl
        rw [this]
        simp only [em_bind, em_pure]
        exact ih l (.data d) _
  rintro ⟨n, h⟩
  cases n with
  | zero => simp [run, noFuel] at h
  | succ n =>
    simp only [run, stepTask, callStep, inNewEnv, key] at h
    simp at h

end Iv

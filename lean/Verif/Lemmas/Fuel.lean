import Verif.Lemmas.Interp
/-
More fuel does not change the outcome of an evaluation.
-/
namespace Iv
variable {D H : Type}

/-- every outcome of `m` is the outcome of `m'` -/
def Le {α} (m m' : EM D H α) : Prop := ∀ s x, m s = some x → m' s = some x

section
variable {α β : Type}

theorem Le.refl (m : EM D H α) : Le m m := fun _ _ h => h

theorem Le.bind {m m' : EM D H α} {f f' : α → EM D H β} (h : Le m m') (hf : ∀ a, Le (f a) (f' a)) :
    Le (m >>= f) (m' >>= f') := by
  intro s ⟨r, s'⟩ e
  rcases em_bind_some e with ⟨a, s1, h1, h2⟩ | ⟨x, h1, rfl⟩
  · rw [em_bind, h _ _ h1]; exact hf a _ _ h2
  · rw [em_bind, h _ _ h1]

theorem Le.try {m m' : EM D H α} (h : Le m m') : Le (tryEM m) (tryEM m') := by
  intro s x e
  unfold tryEM at *
  cases hm : m s with
  | none => rw [hm] at e; simp at e
  | some y => rw [h _ _ hm]; rw [hm] at e; exact e

theorem Le.resume {m m' : EM D H α} {k k' : Except Fail α → EM D H β} (h : Le m m') (hk : ∀ a, Le (k a) (k' a)) :
    Le (resume m k) (resume m' k') := by
  refine Le.bind h.try (fun r => ?_)
  split
  · exact Le.refl _
  · exact hk _

theorem Le.inNewEnv {m m' : EM D H α} (vars : Vars D) (h : Le m m') : Le (inNewEnv vars m) (inNewEnv vars m') := by
  intro s x e
  unfold Iv.inNewEnv at *
  cases hm : m { s with envs := s.envs ++ [⟨some s.cur, vars⟩], cur := s.envs.length } with
  | none => rw [hm] at e; simp at e
  | some y => rw [h _ _ hm]; rw [hm] at e; exact e
end

section
variable {rec rec' : Rec D H} (hrec : ∀ j, Le (rec j) (rec' j))
include hrec

theorem le_runAct {α} (p : Act D H α) : Le (runAct rec p) (runAct rec' p) := by
  induction p with
  | ret r => cases r <;> exact Le.refl _
  | call f l r k ih => exact Le.resume (hrec _) ih
  | exec e k ih => exact Le.resume (hrec _) ih
  | envCall f l r vars k ih => exact Le.resume (Le.inNewEnv _ (hrec _)) ih
  | print v k ih => intro s x h; exact ih _ _ h
  | origin k ih => intro s x h; exact ih _ _ _ h
  | getH k ih => intro s x h; exact ih _ _ _ h
  | setH h' k ih => intro s x h; exact ih _ _ h

theorem le_evalAll (es : List (Expr D)) : Le (evalAll rec es) (evalAll rec' es) := by
  induction es with
  | nil => exact Le.refl _
  | cons e es ih => exact Le.bind (hrec _) (fun _ => Le.bind ih (fun _ => Le.refl _))

theorem le_evalScalars (sys : Sys D H) (es : List (Expr D)) : Le (evalScalars sys rec es) (evalScalars sys rec' es) := by
  induction es with
  | nil => exact Le.refl _
  | cons e es ih =>
    refine Le.bind (hrec _) (fun v => ?_)
    split
    · split
      · exact Le.bind ih (fun _ => Le.refl _)
      · exact Le.refl _
    · exact Le.refl _

theorem le_dispatch {α} (use : Handler D H → Option (IVal D) → IVal D → Act D H α) (l r) (hs : List (Handler D H)) :
    Le (dispatch use rec l r hs) (dispatch use rec' l r hs) := by
  induction hs with
  | nil => exact Le.refl _
  | cons h hs ih =>
    unfold dispatch
    split
    · exact le_runAct hrec _
    · exact ih

theorem le_dispatchOp {α} (use : OpHandler D H → IVal D → Option (IVal D) → Act D H α) (l r) (hs : List (OpHandler D H)) :
    Le (dispatchOp use rec l r hs) (dispatchOp use rec' l r hs) := by
  induction hs with
  | nil => exact Le.refl _
  | cons h hs ih =>
    unfold dispatchOp
    split
    · exact le_runAct hrec _
    · exact ih

theorem le_evalOpd (e : Option (Expr D)) : Le (evalOpd rec e) (evalOpd rec' e) := by
  cases e
  · exact Le.refl _
  · exact hrec _

theorem le_optOpd (b : Bool) (e : Option (Expr D)) :
    Le ((if b then do let v ← evalOpd rec e; return some v else pure none) : EM D H (Option (IVal D)))
      ((if b then do let v ← evalOpd rec' e; return some v else pure none) : EM D H (Option (IVal D))) := by
  cases b
  · exact Le.refl _
  · exact Le.bind (le_evalOpd hrec e) (fun _ => Le.refl _)

theorem le_selectStep (sys : Sys D H) (f l r) : Le (selectStep sys rec f l r) (selectStep sys rec' f l r) := by
  unfold selectStep
  split
  · split
    · exact Le.refl _
    · split
      · exact Le.refl _
      · exact Le.bind (le_evalOpd hrec _) (fun LO => Le.bind (le_optOpd hrec _ _) (fun RO => le_dispatchOp hrec _ _ _ _))
  · split
    · exact Le.refl _
    · exact le_dispatch hrec _ _ _ _
  · exact Le.refl _

theorem le_evalTarget (e : Expr D) : Le (evalTarget rec e) (evalTarget rec' e) := by
  unfold evalTarget
  split
  · exact Le.refl _
  · exact Le.refl _
  · split
    · exact Le.refl _
    · exact Le.refl _
    · exact Le.bind (hrec _) (fun _ => Le.refl _)

theorem le_assignVal (sys : Sys D H) (w idx f r) : Le (assignVal sys rec w idx f r) (assignVal sys rec' w idx f r) := by
  unfold assignVal
  split
  · exact le_runAct hrec _
  · split
    · exact Le.refl _
    · exact Le.bind (hrec _) (fun _ => Le.refl _)

theorem le_assignBack (sys : Sys D H) (name env v) : Le (assignBack sys rec name env v) (assignBack sys rec' name env v) := by
  unfold assignBack
  split
  · exact Le.refl _
  · exact Le.bind (le_runAct hrec _) (fun _ => Le.refl _)

theorem le_assignFound (sys : Sys D H) (name idx f r) : Le (assignFound sys rec name idx f r) (assignFound sys rec' name idx f r) := by
  unfold assignFound
  refine Le.bind (Le.refl _) (fun s => ?_)
  split
  · exact Le.refl _
  · exact Le.bind (le_assignVal hrec sys _ _ _ _) (fun _ => le_assignBack hrec sys _ _ _)

theorem le_assignScalar (sys : Sys D H) (name idx f r) :
    Le (assignScalar sys rec name idx f r) (assignScalar sys rec' name idx f r) := by
  unfold assignScalar
  split
  · exact Le.bind (le_runAct hrec _) (fun _ => Le.refl _)
  · exact le_assignFound hrec sys _ _ _ _

theorem le_assignNames (sys : Sys D H) (f) (l : List (String × IVal D)) : Le (assignNames sys rec f l) (assignNames sys rec' f l) := by
  induction l with
  | nil => exact Le.refl _
  | cons p l ih => exact Le.bind (le_assignScalar hrec sys _ _ _ _) (fun _ => ih)

theorem le_assignVector (sys : Sys D H) (names f r) : Le (assignVector sys rec names f r) (assignVector sys rec' names f r) := by
  unfold assignVector
  refine Le.bind (le_runAct hrec _) (fun vs => ?_)
  split
  · exact Le.bind (le_assignNames hrec sys _ _) (fun _ => Le.refl _)
  · split
    · exact Le.refl _
    · exact Le.bind (le_assignNames hrec sys _ _) (fun _ => Le.refl _)

theorem le_assignStep (sys : Sys D H) (t f r) : Le (assignStep sys rec t f r) (assignStep sys rec' t f r) := by
  unfold assignStep
  split
  · exact le_assignVector hrec sys _ _ _
  · exact Le.bind (le_assignScalar hrec sys _ _ _ _) (fun _ => Le.refl _)

theorem le_derivedStep (sys : Sys D H) (op lo ro l r) : Le (derivedStep sys rec op lo ro l r) (derivedStep sys rec' op lo ro l r) := by
  unfold derivedStep
  have A : ∀ e f, Le (do let t ← evalTarget rec e; assignStep sys rec t f r : EM D H (IVal D))
      (do let t ← evalTarget rec' e; assignStep sys rec' t f r : EM D H (IVal D)) :=
    fun e f => Le.bind (le_evalTarget hrec e) (fun t => le_assignStep hrec sys t f r)
  split
  · split
    · split
      · exact Le.refl _
      · exact A _ _
    · split
      · exact A _ _
      · exact A _ _
      · exact Le.refl _
    · exact Le.refl _
  · split
    · exact Le.refl _
    · exact Le.bind (le_optOpd hrec _ _) (fun _ => Le.bind (le_evalOpd hrec _) (fun _ => le_dispatchOp hrec _ _ _ _))

theorem le_forkCall (f g h l r) : Le (forkRun rec f g h l r) (forkRun rec' f g h l r) := by
  unfold forkRun
  split
  · refine Le.bind ?_ (fun x => Le.bind (hrec _) (fun y => hrec _))
    split
    · exact hrec _
    · exact Le.refl _
  · exact Le.refl _

theorem le_atopCall (g h l r) : Le (atopRun rec g h l r) (atopRun rec' g h l r) := by
  unfold atopRun
  split
  · exact Le.bind (hrec _) (fun y => hrec _)
  · exact Le.refl _

theorem le_trainStep (es l r) : Le (trainStep rec es l r) (trainStep rec' es l r) := by
  unfold trainStep
  split
  · exact Le.refl _
  · exact Le.refl _
  · exact Le.bind (hrec _) (fun _ => Le.bind (hrec _) (fun _ => le_atopCall hrec _ _ _ _))
  · exact Le.bind (hrec _) (fun _ => Le.bind (hrec _) (fun _ => Le.bind (hrec _) (fun _ => le_forkCall hrec _ _ _ _ _)))
  · split
    · exact Le.bind (hrec _) (fun _ => le_atopCall hrec _ _ _ _)
    · exact Le.bind (hrec _) (fun _ => Le.bind (hrec _) (fun _ => le_forkCall hrec _ _ _ _ _))

theorem le_guardEval (sys : Sys D H) (g) : Le (guardEval sys rec g) (guardEval sys rec' g) := by
  unfold guardEval
  split
  · exact Le.bind (le_evalOpd hrec _) (fun _ => Le.refl _)
  · refine Le.bind (hrec _) (fun v => ?_)
    split
    · exact Le.refl _
    · exact Le.refl _
    · exact Le.bind (le_evalOpd hrec _) (fun _ => Le.refl _)

theorem le_guardLoop (sys : Sys D H) (gs ret) : Le (guardLoop sys rec gs ret) (guardLoop sys rec' gs ret) := by
  induction gs generalizing ret with
  | nil => exact Le.refl _
  | cons g gs ih =>
    unfold guardLoop
    dsimp only
    split
    · exact Le.refl _
    · split
      · exact Le.refl _
      · refine Le.bind (le_guardEval hrec sys g) (fun v => ?_)
        split
        · exact ih _
        · split
          · exact ih _
          · exact Le.refl _

theorem le_loopStep (sys : Sys D H) (body l r) : Le (loopStep sys rec body l r) (loopStep sys rec' body l r) := by
  unfold loopStep
  refine Le.bind (Le.refl _) (fun _ => Le.bind (le_guardLoop hrec sys _ _) (fun v => ?_))
  split
  · exact Le.refl _
  · refine Le.bind (hrec _) (fun r' => Le.bind ?_ (fun l' => hrec _))
    split
    · exact Le.refl _
    · exact Le.bind (hrec _) (fun _ => Le.refl _)

theorem le_callStep (sys : Sys D H) (f l r) : Le (callStep sys rec f l r) (callStep sys rec' f l r) := by
  unfold callStep
  split
  · split
    · exact Le.refl _
    · exact le_dispatch hrec _ _ _ _
  · refine Le.bind (Le.refl _) (fun s => ?_)
    split
    · exact Le.refl _
    · exact hrec _
    · exact Le.refl _
  · exact Le.refl _
  · exact Le.inNewEnv _ (hrec _)
  · refine Le.bind (Le.refl _) (fun s => ?_)
    split
    · exact Le.refl _
    · split
      · exact Le.refl _
      · split
        · exact hrec _
        · exact Le.refl _
  · exact le_derivedStep hrec sys _ _ _ _ _
  · exact le_trainStep hrec _ _ _
  · exact le_runAct hrec _

theorem le_appStep (sys : Sys D H) (f l r sel) : Le (appStep sys rec f l r sel) (appStep sys rec' f l r sel) := by
  unfold appStep
  refine Le.bind (hrec _) (fun x => Le.bind ?_ (fun y => ?_))
  · split
    · exact Le.refl _
    · split
      · exact Le.refl _
      · exact Le.bind (hrec _) (fun _ => Le.refl _)
  · split
    · exact le_selectStep hrec sys _ _ _
    · exact hrec _

theorem le_evalStep (sys : Sys D H) (e) : Le (evalStep sys rec e) (evalStep sys rec' e) := by
  unfold evalStep
  split
  · exact Le.refl _
  · exact Le.refl _
  · exact Le.refl _
  · exact hrec _
  · exact Le.bind (le_evalScalars hrec sys _) (fun _ => le_runAct hrec _)
  · exact Le.bind (le_evalAll hrec _) (fun _ => le_runAct hrec _)
  · exact Le.bind (le_evalAll hrec _) (fun _ => le_runAct hrec _)
  · exact Le.refl _
  · exact le_appStep hrec sys _ _ _ _

theorem le_stepTask (sys : Sys D H) (j) : Le (stepTask sys rec j) (stepTask sys rec' j) := by
  cases j
  · exact le_evalStep hrec sys _
  · exact le_callStep hrec sys _ _ _
  · exact le_loopStep hrec sys _ _ _
end

theorem le_run_succ (sys : Sys D H) (n : Nat) (j : Job D) : Le (run sys n j) (run sys (n + 1) j) := by
  induction n generalizing j with
  | zero => intro s x h; simp [run, noFuel] at h
  | succ n ih => exact le_stepTask ih sys j

theorem le_run (sys : Sys D H) {n m : Nat} (h : n ≤ m) (j : Job D) : Le (run sys n j) (run sys m j) := by
  induction m with
  | zero => have : n = 0 := by omega
            subst this; exact Le.refl _
  | succ m ih =>
    by_cases e : n = m + 1
    · subst e; exact Le.refl _
    · intro s x hx; exact le_run_succ sys m j s x (ih (by omega) s x hx)

/-! ### Outcomes of computations that depend on fuel -/

/-- `m` has the outcome `r` with some amount of fuel -/
def Yields {α} (m : Nat → EM D H α) (s : St D H) (r : Except Fail α) (s' : St D H) : Prop := ∃ n, m n s = some (r, s')

/-- more fuel gives the same outcome -/
def Mono {α} (m : Nat → EM D H α) : Prop := ∀ n k, n ≤ k → Le (m n) (m k)

theorem Mono.const {α} (m : EM D H α) : Mono (fun _ => m) := fun _ _ _ => Le.refl _

theorem Mono.run (sys : Sys D H) (j : Job D) : Mono (fun n => run sys n j) := fun _ _ h => le_run sys h j

theorem yields_const {α} (m : EM D H α) (s r s') : Yields (fun _ => m) s r s' ↔ m s = some (r, s') :=
  ⟨fun ⟨_, h⟩ => h, fun h => ⟨0, h⟩⟩

theorem yields_pure {α} (a : α) (s : St D H) (r s') : Yields (fun _ => (pure a : EM D H α)) s r s' ↔ r = .ok a ∧ s' = s := by
  rw [yields_const, em_pure]
  simp only [Option.some.injEq, Prod.mk.injEq]
  constructor
  · rintro ⟨a, b⟩; exact ⟨a.symm, b.symm⟩
  · rintro ⟨a, b⟩; exact ⟨a.symm, b.symm⟩

theorem yields_fail {α} (e : Fail) (s : St D H) (r s') : Yields (fun _ => (fail e : EM D H α)) s r s' ↔ r = .error e ∧ s' = s := by
  rw [yields_const]
  simp only [fail, Option.some.injEq, Prod.mk.injEq]
  constructor
  · rintro ⟨a, b⟩; exact ⟨a.symm, b.symm⟩
  · rintro ⟨a, b⟩; exact ⟨a.symm, b.symm⟩

theorem yields_bind {α β} {m : Nat → EM D H α} {f : Nat → α → EM D H β} (hm : Mono m) (hf : ∀ a, Mono (fun n => f n a))
    (s : St D H) (r s') :
    Yields (fun n => m n >>= f n) s r s' ↔
      (∃ a s1, Yields m s (.ok a) s1 ∧ Yields (fun n => f n a) s1 r s') ∨ (∃ e, r = .error e ∧ Yields m s (.error e) s') := by
  constructor
  · rintro ⟨n, h⟩
    rcases em_bind_some h with ⟨a, s1, h1, h2⟩ | ⟨e, h1, h2⟩
    · exact .inl ⟨a, s1, ⟨n, h1⟩, ⟨n, h2⟩⟩
    · exact .inr ⟨e, h2, ⟨n, h1⟩⟩
  · rintro (⟨a, s1, ⟨n, h1⟩, ⟨k, h2⟩⟩ | ⟨e, rfl, ⟨n, h1⟩⟩)
    · refine ⟨max n k, ?_⟩
      show (m (max n k) >>= f (max n k)) s = _
      rw [em_bind, hm n (max n k) (Nat.le_max_left _ _) _ _ h1]
      exact hf a k (max n k) (Nat.le_max_right _ _) _ _ h2
    · refine ⟨n, ?_⟩
      show (m n >>= f n) s = _
      rw [em_bind, h1]

theorem Mono.bind {α β} {m : Nat → EM D H α} {f : Nat → α → EM D H β} (hm : Mono m) (hf : ∀ a, Mono (fun n => f n a)) :
    Mono (fun n => m n >>= f n) :=
  fun n k h => Le.bind (hm n k h) (fun a => hf a n k h)

theorem yields_det {α} {m : Nat → EM D H α} (hm : Mono m) {s r1 s1 r2 s2} (h1 : Yields m s r1 s1) (h2 : Yields m s r2 s2) :
    r1 = r2 ∧ s1 = s2 := by
  obtain ⟨n, h1⟩ := h1
  obtain ⟨k, h2⟩ := h2
  have e1 := hm n (max n k) (Nat.le_max_left _ _) _ _ h1
  have e2 := hm k (max n k) (Nat.le_max_right _ _) _ _ h2
  rw [e1] at e2
  simpa using e2

theorem mono_runAct {α} (sys : Sys D H) (p : Act D H α) : Mono (fun n => runAct (run sys n) p) :=
  fun _ _ h => le_runAct (fun j => le_run sys h j) p

end Iv

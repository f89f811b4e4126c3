import Verif.Props.Lambda
import Mathlib.Data.List.Induction
/-
C46 (evaluation order), C47 (order of statements), C53 (dispatch).
-/
namespace Iv
variable {D H : Type}

/-! ### C46: the right argument is evaluated before the left one -/

/-- `l f r`: the right argument is evaluated first, then the left argument in the state left by the right one, then the function is
called with the two values.  If an argument fails, the rest is not evaluated. -/
theorem C46_dyadic_order (sys : Sys D H) (f : Func D) (l r : Expr D) (hf : f.isAssignOp = false) (s s' : St D H)
    (x : Except Fail (IVal D)) :
    Evals sys (.eval (.app f (some l) r false)) s x s' ↔
      (∃ e, x = .error e ∧ Evals sys (.eval r) s (.error e) s') ∨
      (∃ rv s1, Evals sys (.eval r) s (.ok rv) s1 ∧
        ((∃ e, x = .error e ∧ Evals sys (.eval l) s1 (.error e) s') ∨
         (∃ lv s2, Evals sys (.eval l) s1 (.ok lv) s2 ∧ Evals sys (.call f (some lv) rv) s2 x s'))) := by
  rw [evals_step]
  have hstep : (fun n => stepTask sys (run sys n) (.eval (.app f (some l) r false))) =
      (fun n => run sys n (.eval r) >>= fun rv => run sys n (.eval l) >>= fun lv => run sys n (.call f (some lv) rv)) := by
    have hl : ∀ n, (if f.isAssignOp then pure (some (.target l)) else do let v ← run sys n (.eval l); return some v :
        EM D H (Option (IVal D))) = (run sys n (.eval l) >>= fun v => pure (some v)) := by intro n; rw [hf]; rfl
    funext n s
    simp only [stepTask, evalStep, appStep, hl]
    rw [em_bind, em_bind]
    cases run sys n (.eval r) s with
    | none => rfl
    | some p =>
      obtain ⟨a, s1⟩ := p
      cases a with
      | error e => rfl
      | ok rv =>
        simp only [em_bind]
        cases run sys n (.eval l) s1 with
        | none => rfl
        | some p =>
          obtain ⟨a, s2⟩ := p
          cases a <;> rfl
  rw [hstep, yields_bind (Mono.run sys _) (fun a => Mono.bind (Mono.run sys _) (fun b => Mono.run sys _))]
  constructor
  · rintro (⟨rv, s1, h1, h2⟩ | ⟨e, rfl, h⟩)
    · refine .inr ⟨rv, s1, h1, ?_⟩
      rcases (yields_bind (m := fun n => run sys n (.eval l)) (f := fun n lv => run sys n (.call f (some lv) rv))
        (Mono.run sys _) (fun b => Mono.run sys _) s1 x s').mp h2 with ⟨lv, s2, h3, h4⟩ | ⟨e, rfl, h3⟩
      · exact .inr ⟨lv, s2, h3, h4⟩
      · exact .inl ⟨e, rfl, h3⟩
    · exact .inl ⟨e, rfl, h⟩
  · rintro (⟨e, rfl, h⟩ | ⟨rv, s1, h1, h2⟩)
    · exact .inr ⟨e, rfl, h⟩
    · refine .inl ⟨rv, s1, h1, ?_⟩
      refine (yields_bind (m := fun n => run sys n (.eval l)) (f := fun n lv => run sys n (.call f (some lv) rv))
        (Mono.run sys _) (fun b => Mono.run sys _) s1 x s').mpr ?_
      rcases h2 with ⟨e, rfl, h3⟩ | ⟨lv, s2, h3, h4⟩
      · exact .inr ⟨e, rfl, h3⟩
      · exact .inl ⟨lv, s2, h3, h4⟩

/-- `f r`: the argument is evaluated, then the function is called without a left argument. -/
theorem C46_monadic_order (sys : Sys D H) (f : Func D) (r : Expr D) (s s' : St D H) (x : Except Fail (IVal D)) :
    Evals sys (.eval (.app f none r false)) s x s' ↔
      (∃ e, x = .error e ∧ Evals sys (.eval r) s (.error e) s') ∨
      (∃ rv s1, Evals sys (.eval r) s (.ok rv) s1 ∧ Evals sys (.call f none rv) s1 x s') := by
  rw [evals_step]
  have hstep : (fun n => stepTask sys (run sys n) (.eval (.app f none r false))) =
      (fun n => run sys n (.eval r) >>= fun rv => run sys n (.call f none rv)) := by
    funext n s
    simp only [stepTask, evalStep, appStep]
    rw [em_bind, em_bind]
    cases run sys n (.eval r) s with
    | none => rfl
    | some p =>
      obtain ⟨a, s1⟩ := p
      cases a <;> rfl
  rw [hstep, yields_bind (Mono.run sys _) (fun a => Mono.run sys _)]
  constructor
  · rintro (⟨rv, s1, h1, h2⟩ | ⟨e, rfl, h⟩)
    · exact .inr ⟨rv, s1, h1, h2⟩
    · exact .inl ⟨e, rfl, h⟩
  · rintro (⟨e, rfl, h⟩ | ⟨rv, s1, h1, h2⟩)
    · exact .inr ⟨e, rfl, h⟩
    · exact .inl ⟨rv, s1, h1, h2⟩

/-! ### C53: dispatch -/

/-- the table of primitives after a sequence of registrations, the oldest first -/
def registry (regs : List (String × Handler D H)) : String → Option (List (Handler D H)) :=
  regs.foldl (fun m p => registerPrimitive m p.1 p.2) (fun _ => none)

theorem registry_snoc (regs : List (String × Handler D H)) (p : String × Handler D H) :
    registry (regs ++ [p]) = registerPrimitive (registry regs) p.1 p.2 := by
  simp [registry, List.foldl_append]

/-- the handlers of a symbol: the latest first -/
theorem registry_eq (regs : List (String × Handler D H)) (p : String) :
    (registry regs p).getD [] = ((regs.filter (fun q => q.1 == p)).map Prod.snd).reverse ∧
    ((registry regs p).isSome ↔ ∃ h, (p, h) ∈ regs) := by
  induction regs using List.reverseRecOn with
  | nil => simp [registry]
  | append_singleton regs q ih =>
    obtain ⟨a, h⟩ := q
    rw [registry_snoc]
    unfold registerPrimitive
    by_cases hp : p = a
    · subst hp
      simp only [if_true, Option.getD_some, ih.1, List.filter_append, List.map_append, List.reverse_append]
      constructor
      · simp
      · simp
    · have hp' : ¬ a = p := fun e => hp e.symm
      simp only [hp, if_false, ih.1, List.filter_append, List.map_append, List.reverse_append, ih.2]
      constructor
      · simp [hp']
      · simp [hp, hp']

theorem dispatch_first {ρ} (use : Handler D H → Option (IVal D) → IVal D → Act D H ρ) (rec : Rec D H)
    (l : Option (IVal D)) (r : IVal D) (pre post : List (Handler D H)) (h : Handler D H) (l' r')
    (hpre : ∀ g ∈ pre, g.to l r = none) (hh : h.to l r = some (l', r')) :
    dispatch use rec l r (pre ++ h :: post) = runAct rec (use h l' r') := by
  induction pre with
  | nil => simp [dispatch, hh]
  | cons g pre ih =>
    rw [List.cons_append, dispatch, hpre g (by simp)]
    exact ih (fun g' hg' => hpre g' (by simp [hg']))

theorem dispatch_none {ρ} (use : Handler D H → Option (IVal D) → IVal D → Act D H ρ) (rec : Rec D H)
    (l : Option (IVal D)) (r : IVal D) (hs : List (Handler D H)) (h : ∀ g ∈ hs, g.to l r = none) :
    dispatch use rec l r hs = fail .err := by
  induction hs with
  | nil => rfl
  | cons g hs ih => rw [dispatch, h g (by simp)]; exact ih (fun g' hg' => h g' (by simp [hg']))

/-- A call of a primitive runs the most recently registered handler for the symbol whose domain accepts the arguments, with the
arguments as that domain converts them. -/
theorem C53_latest_handler (sys : Sys D H) (pre post : List (String × Handler D H)) (p : String) (h : Handler D H)
    (hsys : sys.prims = registry (pre ++ (p, h) :: post)) (l l' : Option (IVal D)) (r r' : IVal D)
    (hpost : ∀ g, (p, g) ∈ post → g.to l r = none) (hh : h.to l r = some (l', r')) (s s' : St D H) (x) :
    Evals sys (.call (.prim p) l r) s x s' ↔ Yields (fun n => runAct (run sys n) (h.call l' r')) s x s' := by
  rw [evals_step]
  have hd : ∀ n, stepTask sys (run sys n) (.call (.prim p) l r) = runAct (run sys n) (h.call l' r') := by
    intro n
    simp only [stepTask, callStep, hsys]
    have h1 := registry_eq (pre ++ (p, h) :: post) p
    obtain ⟨hs, hhs⟩ := Option.isSome_iff_exists.mp (h1.2.mpr ⟨h, by simp⟩)
    rw [hhs] at h1 ⊢
    simp only [Option.getD_some] at h1
    rw [h1.1]
    simp only [List.filter_append, List.filter_cons, beq_self_eq_true, if_true, List.map_append, List.map_cons,
      List.reverse_append, List.reverse_cons, List.append_assoc, List.singleton_append]
    apply dispatch_first
    · intro g hg
      simp only [List.mem_reverse, List.mem_map, List.mem_filter, beq_iff_eq] at hg
      obtain ⟨q, ⟨hq, e1⟩, e2⟩ := hg
      apply hpost
      rw [← e1, ← e2]; exact hq
    · exact hh
  simp only [hd]

/-- If no handler accepts the arguments, the call fails and no handler runs: nothing changes. -/
theorem C53_no_handler (sys : Sys D H) (regs : List (String × Handler D H)) (p : String)
    (hsys : sys.prims = registry regs) (l : Option (IVal D)) (r : IVal D)
    (hnone : ∀ g, (p, g) ∈ regs → g.to l r = none) (s s' : St D H) (x) :
    Evals sys (.call (.prim p) l r) s x s' ↔ x = .error .err ∧ s' = s := by
  rw [evals_step]
  have hd : ∀ n, stepTask sys (run sys n) (.call (.prim p) l r) = fail .err := by
    intro n
    simp only [stepTask, callStep, hsys]
    have h1 := registry_eq regs p
    cases hr : registry regs p with
    | none => rfl
    | some hs =>
      rw [hr] at h1
      simp only [Option.getD_some] at h1
      apply dispatch_none
      intro g hg
      rw [h1.1] at hg
      simp only [List.mem_reverse, List.mem_map, List.mem_filter, beq_iff_eq] at hg
      obtain ⟨q, ⟨hq, e1⟩, e2⟩ := hg
      apply hnone
      rw [← e1, ← e2]; exact hq
  simp only [hd]
  exact yields_fail .err s x s'

/-- The table of operators after registrations (an error leaves the table as it is). -/
def opRegistry (regs : List (String × OpHandler D H)) : String → List (OpHandler D H) :=
  regs.foldl (fun m p => match registerOperator m p.1 p.2 with | .ok m' => m' | .error _ => m) (fun _ => [])

/-- All operators registered under a symbol have the same arity, after any sequence of registrations. -/
theorem C53_operator_arity (regs : List (String × OpHandler D H)) (p : String) (o o' : OpHandler D H)
    (ho : o ∈ opRegistry regs p) (ho' : o' ∈ opRegistry regs p) : o.dyadic = o'.dyadic := by
  induction regs using List.reverseRecOn generalizing o o' with
  | nil => simp [opRegistry] at ho
  | append_singleton regs q ih =>
    obtain ⟨a, h⟩ := q
    have hstep : opRegistry (regs ++ [(a, h)]) =
        match registerOperator (opRegistry regs) a h with | .ok m' => m' | .error _ => opRegistry regs := by
      simp [opRegistry, List.foldl_append]
    rw [hstep] at ho ho'
    unfold registerOperator at ho ho'
    cases hm : opRegistry regs a with
    | nil =>
      simp only [hm] at ho ho'
      by_cases hp : p = a
      · simp only [hp, if_true, List.mem_singleton] at ho ho'; rw [ho, ho']
      · simp only [hp, if_false] at ho ho'; exact ih o o' ho ho'
    | cons o1 os =>
      simp only [hm] at ho ho'
      by_cases hd : o1.dyadic = h.dyadic
      · simp only [hd, ne_eq, not_true_eq_false, if_false] at ho ho'
        by_cases hp : p = a
        · subst hp
          simp only [if_true] at ho ho'
          have m1 : o1 ∈ opRegistry regs p := by rw [hm]; simp
          have cs : ∀ y, y ∈ h :: o1 :: os → y.dyadic = o1.dyadic := by
            intro y hy
            rcases List.mem_cons.mp hy with e | e
            · rw [e]; exact hd.symm
            · exact ih y o1 (by rw [hm]; exact e) m1
          rw [cs o ho, cs o' ho']
        · simp only [hp, if_false] at ho ho'; exact ih o o' ho ho'
      · simp only [ne_eq, hd, not_false_eq_true, if_true] at ho ho'
        exact ih o o' ho ho'

end Iv

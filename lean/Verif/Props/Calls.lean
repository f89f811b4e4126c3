import Verif.Props.InterpDemo
/-
C32, C44, C53, C63 in the interpreter: calls of trains, named functions and derived functions, and assignment to several names.
-/
namespace Iv
variable {D H : Type}

/-! ### Specification -/

/-- an activity that goes from a state to an outcome and a new state -/
abbrev Activity (D H α : Type) := St D H → Except Fail α → St D H → Prop

/-- First `P`, then `Q` with the value of `P`; an error of `P` is the outcome, and `Q` does not happen. -/
def AndThen {α β : Type} (P : Activity D H α) (Q : α → Activity D H β) : Activity D H β := fun s x s' =>
  (∃ v s1, P s (.ok v) s1 ∧ Q v s1 x s') ∨ (∃ e, x = .error e ∧ P s (.error e) s')

/-- the value itself, nothing else happens -/
def Gives {α : Type} (v : α) : Activity D H α := fun s x s' => x = .ok v ∧ s' = s

/-- an error, nothing else happens -/
def Fails {α : Type} : Activity D H α := fun s x s' => x = .error .err ∧ s' = s

/-- Go code of a primitive or an operator runs -/
def Performs {α : Type} (sys : Sys D H) (p : Act D H α) : Activity D H α := Yields (fun k => runAct (run sys k) p)

theorem yields_seq {α β} {m : Nat → EM D H α} {f : Nat → α → EM D H β} (hm : Mono m) (hf : ∀ a, Mono (fun n => f n a))
    (s : St D H) (x s') : Yields (fun n => m n >>= f n) s x s' ↔ AndThen (Yields m) (fun a => Yields (fun n => f n a)) s x s' :=
  yields_bind hm hf s x s'

theorem seq_congr {α β} {P P' : Activity D H α} {Q Q' : α → Activity D H β} (hP : ∀ s x s', P s x s' ↔ P' s x s')
    (hQ : ∀ a s x s', Q a s x s' ↔ Q' a s x s') (s x s') : AndThen P Q s x s' ↔ AndThen P' Q' s x s' := by
  simp only [AndThen, hP, hQ]

theorem seq_gives {α β} (v : α) (Q : α → Activity D H β) (s x s') : AndThen (Gives v) Q s x s' ↔ Q v s x s' := by
  constructor
  · rintro (⟨w, s1, ⟨h, rfl⟩, h2⟩ | ⟨e, _, ⟨h, _⟩⟩)
    · cases h; exact h2
    · cases h
  · exact fun h => .inl ⟨v, s, ⟨rfl, rfl⟩, h⟩

/-- a function as an expression is its own value -/
theorem evals_fn (sys : Sys D H) (f : Func D) (s : St D H) (x s') : Evals sys (.eval (.fn f)) s x s' ↔ Gives (.fn f) s x s' := by
  rw [evals_step]
  exact yields_pure _ s x s'

/-! ### C32: trains -/

/-- the first tine of a fork: a function is called, another value stands for itself -/
def Tine (sys : Sys D H) (l : Option (IVal D)) (r : IVal D) : IVal D → Activity D H (IVal D)
  | .fn f => Evals sys (.call f l r)
  | v => Gives v

theorem fork_iff (sys : Sys D H) (v : IVal D) (g h : Func D) (l : Option (IVal D)) (r : IVal D) (s : St D H) (x s') :
    Yields (fun n => forkRun (run sys n) v (.fn g) (.fn h) l r) s x s' ↔
      AndThen (Tine sys l r v) (fun a => AndThen (Evals sys (.call h l r)) (fun b => Evals sys (.call g (some a) b))) s x s' := by
  have rest : ∀ a s x s', Yields (fun n => run sys n (.call h l r) >>= fun b => run sys n (.call g (some a) b)) s x s' ↔
      AndThen (Evals sys (.call h l r)) (fun b => Evals sys (.call g (some a) b)) s x s' :=
    fun a s x s' => yields_seq (Mono.run sys _) (fun b => Mono.run sys _) s x s'
  cases v with
  | fn f =>
    refine Iff.trans (yields_seq (m := fun n => run sys n (.call f l r)) (Mono.run sys _) (fun a => Mono.bind (Mono.run sys _) (fun b => Mono.run sys _)) s x s') ?_
    exact seq_congr (fun _ _ _ => Iff.rfl) rest s x s'
  | data d => exact (rest (.data d) s x s').trans (seq_gives (IVal.data d) (fun a => AndThen (Evals sys (.call h l r)) fun b => Evals sys (.call g (some a) b)) s x s').symm
  | ident d => exact (rest (.ident d) s x s').trans (seq_gives (IVal.ident d) (fun a => AndThen (Evals sys (.call h l r)) fun b => Evals sys (.call g (some a) b)) s x s').symm
  | target d => exact (rest (.target d) s x s').trans (seq_gives (IVal.target d) (fun a => AndThen (Evals sys (.call h l r)) fun b => Evals sys (.call g (some a) b)) s x s').symm

theorem atop_iff (sys : Sys D H) (g h : Func D) (l : Option (IVal D)) (r : IVal D) (s : St D H) (x s') :
    Yields (fun n => atopRun (run sys n) (.fn g) (.fn h) l r) s x s' ↔
      AndThen (Evals sys (.call h l r)) (fun b => Evals sys (.call g none b)) s x s' :=
  yields_seq (Mono.run sys _) (fun b => Mono.run sys _) s x s'

theorem mono_forkRun (sys : Sys D H) (a b c : IVal D) (l r) : Mono (fun n => forkRun (run sys n) a b c l r) :=
  fun _ _ h => le_forkCall (fun j => le_run sys h j) a b c l r

theorem mono_atopRun (sys : Sys D H) (a b : IVal D) (l r) : Mono (fun n => atopRun (run sys n) a b l r) :=
  fun _ _ h => le_atopCall (fun j => le_run sys h j) a b l r

/-- **C32.** In the interpreter, a train `(f g h)` of three: f is evaluated; if it is a function it is called with the arguments of the
train, then h is called with them, then g with the two results, in that order; the first error ends the call. -/
theorem C32_eval_fork (sys : Sys D H) (f : Expr D) (g h : Func D) (l : Option (IVal D)) (r : IVal D) (s : St D H) (x s') :
    Evals sys (.call (.train [f, .fn g, .fn h]) l r) s x s' ↔
      AndThen (Evals sys (.eval f)) (fun v => AndThen (Tine sys l r v) (fun a =>
        AndThen (Evals sys (.call h l r)) (fun b => Evals sys (.call g (some a) b)))) s x s' := by
  rw [evals_step]
  simp only [stepTask, callStep, trainStep]
  rw [yields_seq (Mono.run sys _) (fun v => Mono.bind (Mono.run sys _) (fun _ => Mono.bind (Mono.run sys _) (fun _ => mono_forkRun sys _ _ _ l r)))]
  refine seq_congr (fun _ _ _ => Iff.rfl) (fun v s x s' => ?_) s x s'
  rw [yields_seq (Mono.run sys _) (fun _ => Mono.bind (Mono.run sys _) (fun _ => mono_forkRun sys _ _ _ l r)),
    seq_congr (P' := Gives (.fn g)) (evals_fn sys g) (fun _ _ _ _ => Iff.rfl), seq_gives,
    yields_seq (Mono.run sys _) (fun _ => mono_forkRun sys _ _ _ l r),
    seq_congr (P' := Gives (.fn h)) (evals_fn sys h) (fun _ _ _ _ => Iff.rfl), seq_gives]
  exact fork_iff sys v g h l r s x s'

/-- **C32.** A train `(g h)` of two: h is called with the arguments, then g with the result alone. -/
theorem C32_eval_atop (sys : Sys D H) (g h : Func D) (l : Option (IVal D)) (r : IVal D) (s : St D H) (x s') :
    Evals sys (.call (.train [.fn g, .fn h]) l r) s x s' ↔
      AndThen (Evals sys (.call h l r)) (fun b => Evals sys (.call g none b)) s x s' := by
  rw [evals_step]
  simp only [stepTask, callStep, trainStep]
  rw [yields_seq (Mono.run sys _) (fun v => Mono.bind (Mono.run sys _) (fun _ => mono_atopRun sys _ _ l r)),
    seq_congr (P' := Gives (.fn g)) (evals_fn sys g) (fun _ _ _ _ => Iff.rfl), seq_gives,
    yields_seq (Mono.run sys _) (fun _ => mono_atopRun sys _ _ l r),
    seq_congr (P' := Gives (.fn h)) (evals_fn sys h) (fun _ _ _ _ => Iff.rfl), seq_gives]
  exact atop_iff sys g h l r s x s'

/-- **C32.** A train with an even number of elements, four or more: the first function is called with the result of the train of the
others. -/
theorem C32_eval_even (sys : Sys D H) (f : Func D) (rest : List (Expr D)) (h3 : 3 ≤ rest.length) (ho : rest.length % 2 = 1)
    (l : Option (IVal D)) (r : IVal D) (s : St D H) (x s') :
    Evals sys (.call (.train (.fn f :: rest)) l r) s x s' ↔
      AndThen (Evals sys (.call (.train rest) l r)) (fun b => Evals sys (.call f none b)) s x s' := by
  rw [evals_step]
  match rest, h3, ho with
  | a :: b :: c :: t, _, ho =>
    have he : (Expr.fn f :: a :: b :: c :: t).length % 2 = 0 := by simp only [List.length_cons] at ho ⊢; omega
    simp only [stepTask, callStep, trainStep, he, if_true]
    rw [yields_seq (Mono.run sys _) (fun v => mono_atopRun sys _ _ l r),
      seq_congr (P' := Gives (.fn f)) (evals_fn sys f) (fun _ _ _ _ => Iff.rfl), seq_gives]
    exact atop_iff sys f (.train (a :: b :: c :: t)) l r s x s'

/-- **C32.** A train with an odd number of elements, five or more, is the fork of the first, the second and the train of the others. -/
theorem C32_eval_odd (sys : Sys D H) (f : Expr D) (g : Func D) (rest : List (Expr D)) (h3 : 3 ≤ rest.length) (ho : rest.length % 2 = 1)
    (l : Option (IVal D)) (r : IVal D) (s : St D H) (x s') :
    Evals sys (.call (.train (f :: .fn g :: rest)) l r) s x s' ↔
      AndThen (Evals sys (.eval f)) (fun v => AndThen (Tine sys l r v) (fun a =>
        AndThen (Evals sys (.call (.train rest) l r)) (fun b => Evals sys (.call g (some a) b)))) s x s' := by
  rw [evals_step]
  match rest, h3, ho with
  | a :: b :: c :: t, _, ho =>
    have he : ¬ (f :: Expr.fn g :: a :: b :: c :: t).length % 2 = 0 := by simp only [List.length_cons] at ho ⊢; omega
    simp only [stepTask, callStep, trainStep, he, if_false]
    rw [yields_seq (Mono.run sys _) (fun v => Mono.bind (Mono.run sys _) (fun _ => mono_forkRun sys _ _ _ l r))]
    refine seq_congr (fun _ _ _ => Iff.rfl) (fun v s x s' => ?_) s x s'
    rw [yields_seq (Mono.run sys _) (fun v => mono_forkRun sys _ _ _ l r),
      seq_congr (P' := Gives (.fn g)) (evals_fn sys g) (fun _ _ _ _ => Iff.rfl), seq_gives]
    exact fork_iff sys v g (.train (a :: b :: c :: t)) l r s x s'

/-- **C32.** A train with a single element cannot be called. -/
theorem C32_eval_short (sys : Sys D H) (es : List (Expr D)) (h : es.length < 2) (l : Option (IVal D)) (r : IVal D) (s : St D H) (x s') :
    Evals sys (.call (.train es) l r) s x s' ↔ Fails s x s' := by
  rw [evals_step]
  match es, h with
  | [], _ => exact yields_fail _ s x s'
  | [_], _ => exact yields_fail _ s x s'

/-! ### C44: named functions -/

/-- **C44.** A call by name calls the function of the innermost binding of the name, with the same arguments. -/
theorem C44_named_function (sys : Sys D H) (n : String) (ho : Ordinary n) (l : Option (IVal D)) (r : IVal D) (s : St D H) (w : WF s) (e : Nat)
    (f : Func D) (h : Resolves s.envs n s.cur e) (hv : slot s.envs e n = some (some (.fn f))) (x s') :
    Evals sys (.call (.fvar n) l r) s x s' ↔ Evals sys (.call f l r) s x s' := by
  rw [evals_step]
  have : ∀ k, stepTask sys (run sys k) (.call (.fvar n) l r) s = run sys k (.call f l r) s := by
    intro k
    simp only [stepTask, callStep, em_bind, getSt]
    rw [C44_lookup sys s w n ho e h, hv]
    rfl
  constructor
  · rintro ⟨k, hk⟩; exact ⟨k, (this k).symm.trans hk⟩
  · rintro ⟨k, hk⟩; exact ⟨k, (this k).trans hk⟩

/-! ### C53: operators -/

/-- the first of the handlers that accepts the operands, with the operands as it converts them -/
def FirstOp (os : List (OpHandler D H)) (LO : IVal D) (RO : Option (IVal D)) (o : OpHandler D H) (LO' : IVal D) (RO' : Option (IVal D)) : Prop :=
  ∃ pre post, os = pre ++ o :: post ∧ (∀ g ∈ pre, g.to LO RO = none) ∧ o.to LO RO = some (LO', RO')

/-- the derived function of the first handler that accepts the operands is called with the arguments; if there is none, an error -/
def CallsDerived (sys : Sys D H) (os : List (OpHandler D H)) (LO : IVal D) (RO : Option (IVal D)) (l : Option (IVal D)) (r : IVal D) :
    Activity D H (IVal D) := fun s x s' =>
  (∃ o LO' RO', FirstOp os LO RO o LO' RO' ∧ Performs sys (o.derived LO' RO' l r) s x s') ∨
  ((∀ g ∈ os, g.to LO RO = none) ∧ Fails s x s')

theorem dispatchOp_iff (sys : Sys D H) (os : List (OpHandler D H)) (LO : IVal D) (RO : Option (IVal D)) (l : Option (IVal D)) (r : IVal D)
    (s : St D H) (x s') :
    Yields (fun n => dispatchOp (fun h LO RO => h.derived LO RO l r) (run sys n) LO RO os) s x s' ↔ CallsDerived sys os LO RO l r s x s' := by
  induction os with
  | nil =>
    simp only [dispatchOp]
    rw [yields_fail]
    constructor
    · rintro ⟨rfl, rfl⟩; exact .inr ⟨by simp, rfl, rfl⟩
    · rintro (⟨o, LO', RO', ⟨pre, post, h, _⟩, _⟩ | ⟨_, h⟩)
      · simp at h
      · exact h
  | cons o os ih =>
    cases ho : o.to LO RO with
    | some p =>
      obtain ⟨LO', RO'⟩ := p
      simp only [dispatchOp, ho]
      constructor
      · exact fun h => .inl ⟨o, LO', RO', ⟨[], os, rfl, by simp, ho⟩, h⟩
      · rintro (⟨o1, L1, R1, ⟨pre, post, h, hp, h1⟩, hx⟩ | ⟨h, _⟩)
        · cases pre with
          | nil =>
            simp only [List.nil_append, List.cons.injEq] at h
            obtain ⟨rfl, rfl⟩ := h
            rw [ho] at h1; cases h1
            exact hx
          | cons g pre =>
            simp only [List.cons_append, List.cons.injEq] at h
            obtain ⟨rfl, rfl⟩ := h
            rw [hp o (by simp)] at ho; cases ho
        · rw [h o (by simp)] at ho; cases ho
    | none =>
      simp only [dispatchOp, ho]
      rw [ih]
      constructor
      · rintro (⟨o1, L1, R1, ⟨pre, post, rfl, hp, h1⟩, hx⟩ | ⟨h, hx⟩)
        · exact .inl ⟨o1, L1, R1, ⟨o :: pre, post, rfl, fun g hg => (List.mem_cons.1 hg).elim (fun e => e ▸ ho) (hp g), h1⟩, hx⟩
        · exact .inr ⟨fun g hg => (List.mem_cons.1 hg).elim (fun e => e ▸ ho) (h g), hx⟩
      · rintro (⟨o1, L1, R1, ⟨pre, post, h, hp, h1⟩, hx⟩ | ⟨h, hx⟩)
        · cases pre with
          | nil =>
            simp only [List.nil_append, List.cons.injEq] at h
            obtain ⟨rfl, rfl⟩ := h
            rw [ho] at h1; cases h1
          | cons g pre =>
            simp only [List.cons_append, List.cons.injEq] at h
            obtain ⟨rfl, rfl⟩ := h
            exact .inl ⟨o1, L1, R1, ⟨pre, post, rfl, fun g hg => hp g (by simp [hg]), h1⟩, hx⟩
        · exact .inr ⟨fun g hg => h g (by simp [hg]), hx⟩

theorem mono_dispatchOp (sys : Sys D H) (os : List (OpHandler D H)) (LO : IVal D) (RO : Option (IVal D)) (l : Option (IVal D)) (r : IVal D) :
    Mono (fun n => dispatchOp (fun h LO RO => h.derived LO RO l r) (run sys n) LO RO os) :=
  fun _ _ h => le_dispatchOp (fun j => le_run sys h j) _ _ _ _

/-- **C53.** A call of a function derived by a monadic operator: the operand is evaluated, then the first handler of the operator that
accepts it makes the derived function, which is called with both arguments; if none accepts it, the call fails. -/
theorem C53_monadic_operator (sys : Sys D H) (op : String) (hop : op ≠ "←") (o : OpHandler D H) (os : List (OpHandler D H))
    (hos : sys.ops op = o :: os) (hm : o.dyadic = false) (lo : Expr D) (ro : Option (Expr D)) (l : Option (IVal D)) (r : IVal D) (s : St D H) (x s') :
    Evals sys (.call (.der op (some lo) ro) l r) s x s' ↔
      AndThen (Evals sys (.eval lo)) (fun LO => CallsDerived sys (sys.ops op) LO none l r) s x s' := by
  rw [evals_step]
  have hstep : (fun n => stepTask sys (run sys n) (.call (.der op (some lo) ro) l r)) =
      (fun n => run sys n (.eval lo) >>= fun LO => dispatchOp (fun h LO RO => h.derived LO RO l r) (run sys n) LO none (o :: os)) := by
    funext n
    simp only [stepTask, callStep, derivedStep, hop, if_false, hos, hm]
    rfl
  rw [hstep, yields_seq (Mono.run sys _) (fun LO => mono_dispatchOp sys _ _ _ l r), hos]
  exact seq_congr (fun _ _ _ => Iff.rfl) (fun LO s x s' => dispatchOp_iff sys _ LO none l r s x s') s x s'

/-- **C53.** For a dyadic operator the right operand is evaluated first, then the left one. -/
theorem C53_dyadic_operator (sys : Sys D H) (op : String) (hop : op ≠ "←") (o : OpHandler D H) (os : List (OpHandler D H))
    (hos : sys.ops op = o :: os) (hm : o.dyadic = true) (lo ro : Expr D) (l : Option (IVal D)) (r : IVal D) (s : St D H) (x s') :
    Evals sys (.call (.der op (some lo) (some ro)) l r) s x s' ↔
      AndThen (Evals sys (.eval ro)) (fun RO => AndThen (Evals sys (.eval lo)) (fun LO =>
        CallsDerived sys (sys.ops op) LO (some RO) l r)) s x s' := by
  rw [evals_step]
  have hstep : (fun n => stepTask sys (run sys n) (.call (.der op (some lo) (some ro)) l r)) =
      (fun n => run sys n (.eval ro) >>= fun RO => run sys n (.eval lo) >>= fun LO =>
        dispatchOp (fun h LO RO => h.derived LO RO l r) (run sys n) LO (some RO) (o :: os)) := by
    funext n s
    simp only [stepTask, callStep, derivedStep, hop, if_false, hos, hm, if_true, evalOpd, em_bind]
    cases run sys n (.eval ro) s with
    | none => rfl
    | some p =>
      obtain ⟨a, s1⟩ := p
      cases a <;> rfl
  rw [hstep, yields_seq (Mono.run sys _) (fun RO => Mono.bind (Mono.run sys _) (fun LO => mono_dispatchOp sys _ _ _ l r)), hos]
  refine seq_congr (fun _ _ _ => Iff.rfl) (fun RO s x s' => ?_) s x s'
  rw [yields_seq (Mono.run sys _) (fun LO => mono_dispatchOp sys _ _ _ l r)]
  exact seq_congr (fun _ _ _ => Iff.rfl) (fun LO s x s' => dispatchOp_iff sys _ LO (some RO) l r s x s') s x s'

/-- **C53.** An operator that is not registered cannot be called. -/
theorem C53_unknown_operator (sys : Sys D H) (op : String) (hop : op ≠ "←") (hos : sys.ops op = []) (lo ro : Option (Expr D))
    (l : Option (IVal D)) (r : IVal D) (s : St D H) (x s') : Evals sys (.call (.der op lo ro) l r) s x s' ↔ Fails s x s' := by
  rw [evals_step]
  simp only [stepTask, callStep, derivedStep, hop, if_false, hos]
  exact yields_fail _ s x s'

/-- **C53.** Registering an operator under a symbol that has operators of the other arity is an error and changes nothing; otherwise the
operator comes in front of those registered before, and other symbols are not affected. -/
theorem C53_register_operator (m : String → List (OpHandler D H)) (p : String) (o : OpHandler D H) (hm : ∀ a ∈ m p, ∀ b ∈ m p, a.dyadic = b.dyadic) :
    ((∃ o' ∈ m p, o'.dyadic ≠ o.dyadic) → registerOperator m p o = .error .err) ∧
    ((∀ o' ∈ m p, o'.dyadic = o.dyadic) → ∃ m', registerOperator m p o = .ok m' ∧ m' p = o :: m p ∧ ∀ q, q ≠ p → m' q = m q) := by
  unfold registerOperator
  cases h : m p with
  | nil =>
    refine ⟨by rintro ⟨o', ho, _⟩; simp at ho, fun _ => ⟨_, rfl, by simp, fun q hq => by simp [hq]⟩⟩
  | cons a os =>
    constructor
    · rintro ⟨o', ho, hne⟩
      have : a.dyadic ≠ o.dyadic := by rw [hm a (by simp [h]) o' (by rw [h]; exact ho)]; exact hne
      simp only [ne_eq, this, not_false_eq_true, if_true]
    · intro hall
      have : a.dyadic = o.dyadic := hall a (by simp)
      simp only [ne_eq, this, not_true_eq_false, if_false]
      exact ⟨_, rfl, by simp, fun q hq => by simp [hq]⟩

/-! ### C63: assignment to several names -/

/-- what the names hold after the values have been stored under them in the environment `e`, one after the other -/
def boundAfter (e : Nat) : List (String × IVal D) → (Nat → String → Option (Option (IVal D))) → Nat → String → Option (Option (IVal D))
  | [], b => b
  | (n, v) :: rest, b => boundAfter e rest (fun i m => if i = e ∧ m = n then some (some v) else b i m)

/-- `Copy` gives the value `c v` and changes at most the heap -/
def CopiesTo (sys : Sys D H) (c : IVal D → IVal D) : Prop :=
  ∀ (k : Nat) (v : IVal D) (s : St D H), ∃ h', runAct (run sys k) (sys.copy v) s = some (.ok (c v), { s with heap := h' })

theorem assignNames_ok (sys : Sys D H) (c : IVal D → IVal D) (hc : CopiesTo sys c) (k : Nat) (ps : List (String × IVal D))
    (hn : ∀ p ∈ ps, Ordinary p.1 ∧ p.1 ≠ "⍺" ∧ isVarname sys p.1 = some (c p.2).isFn) (s : St D H) (hs : s.cur < s.envs.length) :
    ∃ s', assignNames sys (run sys k) none ps s = some (.ok (), s') ∧ s'.cur = s.cur ∧ s'.envs.length = s.envs.length ∧
      ∀ i m, slot s'.envs i m = boundAfter s.cur (ps.map (fun p => (p.1, c p.2))) (slot s.envs) i m := by
  induction ps generalizing s with
  | nil => exact ⟨s, rfl, rfl, rfl, fun _ _ => rfl⟩
  | cons p ps ih =>
    obtain ⟨n, v⟩ := p
    obtain ⟨ho, ha, hv⟩ := hn (n, v) (by simp)
    obtain ⟨h', he⟩ := hc k v s
    obtain ⟨s', e1, e2, e3, e4⟩ := ih (fun p hp => hn p (by simp [hp])) ⟨putVar s.envs s.cur n (some (c v)), s.cur, s.origin, s.pp, s.out, h'⟩
      (by simpa [putVar_length] using hs)
    refine ⟨s', ?_, e2, ?_, ?_⟩
    · simp only [assignNames, assignScalar, em_bind, he]
      rw [assignEnv_ordinary sys n (c v) none _ ho hv (fun h => absurd h ha)]
      exact e1
    · rw [e3, putVar_length]
    · intro i m
      rw [e4]
      simp only [List.map_cons, boundAfter]
      congr 1
      funext i m
      exact slot_putVar s.envs s.cur n (some (c v)) hs i m

theorem varNames_map (ns : List String) : varNames (ns.map (Expr.var (D := D))) = some ns := by
  induction ns with
  | nil => rfl
  | cons n ns ih => simp only [List.map_cons, varNames, ih]

/-- the call of the assignment operator with several names -/
theorem assign_many (sys : Sys D H) (ns : List String) (rhs : Expr D) (sel : Bool) (hsel : sel = true → ∀ m, rhs ≠ .var m) (k : Nat)
    (s s1 : St D H) (v : IVal D) (h1 : run sys (k + 1) (.eval rhs) s = some (.ok v, s1)) :
    run sys (k + 2) (.eval (.app (.der "←" (some (.strand (ns.map .var))) none) none rhs sel)) s = assignVector sys (run sys k) ns none v s1 := by
  have hc : run sys (k + 1) (.call (.der "←" (some (.strand (ns.map .var))) none) none v) s1 = assignVector sys (run sys k) ns none v s1 := by
    have ht : evalTarget (run sys k) (.strand (ns.map (Expr.var (D := D)))) = pure (.many ns) := by
      simp only [evalTarget, varNames_map]
    simp only [run, stepTask, callStep, derivedStep, if_true, ht, em_bind, em_pure, assignStep]
  show appStep sys (run sys (k + 1)) _ none rhs sel s = _
  rw [← hc]
  unfold appStep
  rw [em_bind, h1]
  simp only [em_bind, em_pure]
  split
  · exact absurd rfl (hsel rfl _)
  · rfl

/-- **C63.** `A B C←R` with as many elements in R as names: each name gets the element at its place, in the current environment (the
last one, if a name occurs twice); a single element goes to all of the names.  No other binding changes; the value is that of R. -/
theorem C63_assign (sys : Sys D H) (c : IVal D → IVal D) (hc : CopiesTo sys c) (ns : List String) (rhs : Expr D) (sel : Bool)
    (hsel : sel = true → ∀ m, rhs ≠ .var m) (s s1 s2 : St D H) (w : WF s) (v : IVal D) (vs : List (IVal D))
    (h1 : Evals sys (.eval rhs) s (.ok v) s1) (h2 : Performs sys (sys.elems v) s1 (.ok vs) s2)
    (ws : List (IVal D)) (hws : vs.length = ns.length ∧ ws = vs ∨ ∃ a, vs = [a] ∧ ws = List.replicate ns.length a)
    (hn : ∀ p ∈ ns.zip ws, Ordinary p.1 ∧ p.1 ≠ "⍺" ∧ isVarname sys p.1 = some (c p.2).isFn) :
    ∃ s', Evals sys (.eval (.app (.der "←" (some (.strand (ns.map .var))) none) none rhs sel)) s (.ok v) s' ∧ s'.cur = s.cur ∧
      s'.envs.length = s2.envs.length ∧
      ∀ i m, slot s'.envs i m = boundAfter s.cur (ns.zip (ws.map c)) (slot s2.envs) i m := by
  obtain ⟨k1, h1'⟩ := h1
  obtain ⟨k2, h2'⟩ := h2
  have K1 := keeps_run sys k1 _ _ _ _ h1'
  have K2 := (evolves_runAct (fun j => evolves_run sys k2 j) _ _ _ _ h2').keeps
  have hlt : s2.cur < s2.envs.length := (K2.wf (K1.wf w)).cur
  have hcur : s2.cur = s.cur := by rw [K2.cur, K1.cur]
  generalize hk : max k1 k2 = k
  have e1 : run sys (k + 1) (.eval rhs) s = some (.ok v, s1) := le_run sys (by omega) _ _ _ h1'
  have e2 : runAct (run sys k) (sys.elems v) s1 = some (.ok vs, s2) := mono_runAct sys _ k2 _ (by omega) _ _ h2'
  obtain ⟨s', e3, e4, e5, e6⟩ := assignNames_ok sys c hc k (ns.zip ws) hn s2 hlt
  refine ⟨s', ⟨k + 2, ?_⟩, by rw [e4, hcur], e5, ?_⟩
  · rw [assign_many sys ns rhs sel hsel k s s1 v e1]
    simp only [assignVector, em_bind, e2]
    have hz : ∀ a, ws = List.replicate ns.length a → ns.zip ws = ns.map (fun n => (n, a)) := by
      intro a ha
      subst ha
      clear hn e3 hws e6
      induction ns with
      | nil => rfl
      | cons n ns ih => simp [List.replicate_succ, ih]
    rcases hws with ⟨hlen, rfl⟩ | ⟨a, rfl, ha⟩
    · match ws, hlen with
      | [a], hlen =>
        have := hz a (by rw [← hlen]; rfl)
        simp only []
        rw [em_bind, ← this, e3]
        rfl
      | [], hlen =>
        simp only [em_bind]
        rw [if_neg (by simpa using hlen), em_bind, e3]
        rfl
      | a :: b :: ws, hlen =>
        simp only [em_bind]
        rw [if_neg (by simpa using hlen), em_bind, e3]
        rfl
    · simp only []
      rw [em_bind, ← hz a ha, e3]
      rfl
  · intro i m
    rw [e6 i m, hcur, List.zip_map_right]
    rfl

/-- **C63.** If R has several elements but not as many as there are names, the assignment fails and no variable is changed by it. -/
theorem C63_nonconforming (sys : Sys D H) (ns : List String) (rhs : Expr D) (sel : Bool) (hsel : sel = true → ∀ m, rhs ≠ .var m)
    (s s1 s2 : St D H) (v : IVal D) (vs : List (IVal D)) (h1 : Evals sys (.eval rhs) s (.ok v) s1)
    (h2 : Performs sys (sys.elems v) s1 (.ok vs) s2) (hl : vs.length ≠ 1) (hne : vs.length ≠ ns.length) :
    Evals sys (.eval (.app (.der "←" (some (.strand (ns.map .var))) none) none rhs sel)) s (.error .err) s2 := by
  obtain ⟨k1, h1'⟩ := h1
  obtain ⟨k2, h2'⟩ := h2
  generalize hk : max k1 k2 = k
  have e1 : run sys (k + 1) (.eval rhs) s = some (.ok v, s1) := le_run sys (by omega) _ _ _ h1'
  have e2 : runAct (run sys k) (sys.elems v) s1 = some (.ok vs, s2) := mono_runAct sys _ k2 _ (by omega) _ _ h2'
  refine ⟨k + 2, ?_⟩
  rw [assign_many sys ns rhs sel hsel k s s1 v e1]
  simp only [assignVector, em_bind, e2]
  match vs, hl, hne with
  | [], _, hne => simp only [em_bind]; rw [if_pos (by simpa using hne)]; rfl
  | a :: b :: vs, _, hne => simp only [em_bind]; rw [if_pos (by simpa using hne)]; rfl

/-! ### Examples -/
namespace Demo

/-- `f⍨`: a monadic operator that swaps the arguments -/
def commuteOp : OpHandler Int Unit where
  dyadic := false
  «to» LO RO := match LO with
    | .fn f => some (.fn f, RO)
    | _ => none
  derived LO _ l r := match LO with
    | .fn f => .call f (some r) (l.getD r) (fun x => .ret x)
    | _ => .ret (.error .err)
  select _ _ _ _ := .ret (.error .err)

/-- numbers only; a number has itself as the only element, the number 100 has the elements 1 2 -/
def sysOps : Sys Int Unit := { sys with
  ops := fun s => if s = "⍨" then [commuteOp] else []
  elems := fun v => match v with
    | .data 100 => .ret (.ok [.data 1, .data 2])
    | v => .ret (.ok [v]) }

def minusF : Expr Int := .fn (.prim "-")

/-- 3(-⍨)10 is 7 -/
example : Evals sysOps (.call (.der "⍨" (some minusF) none) (some (.data 3)) (.data 10)) s0 (.ok (.data 7)) s0 := ⟨15, rfl⟩

/-- 9(- - -)4: (9-4)-(9-4) -/
example : Evals sysOps (.call (.train [minusF, minusF, minusF]) (some (.data 9)) (.data 4)) s0 (.ok (.data 0)) s0 := ⟨15, rfl⟩

/-- 9(20 - -)4: 20-(9-4) -/
example : Evals sysOps (.call (.train [.lit 20, minusF, minusF]) (some (.data 9)) (.data 4)) s0 (.ok (.data 15)) s0 := ⟨15, rfl⟩

/-- 9(- -)4: -(9-4) -/
example : Evals sysOps (.call (.train [minusF, minusF]) (some (.data 9)) (.data 4)) s0 (.ok (.data (-5))) s0 := ⟨15, rfl⟩

theorem copies : CopiesTo sysOps id := fun _ _ _ => ⟨(), rfl⟩

/-- `A B←100`: A is 1, B is 2 -/
example : ∃ s', Evals sysOps (.eval (.app (.der "←" (some (.strand (["A", "B"].map .var))) none) none (.lit 100) false)) s0 (.ok (.data 100)) s' ∧
    slot s'.envs 0 "A" = some (some (.data 1)) ∧ slot s'.envs 0 "B" = some (some (.data 2)) ∧ slot s'.envs 0 "X" = some (some (.data 5)) := by
  obtain ⟨s', h, _, _, h'⟩ := C63_assign sysOps id copies ["A", "B"] (.lit 100) false (by simp) s0 s0 s0 s0_wf (.data 100)
    [.data 1, .data 2] ⟨5, rfl⟩ ⟨5, rfl⟩ [.data 1, .data 2] (.inl ⟨rfl, rfl⟩) (by
      intro p hp
      simp only [List.zip_cons_cons, List.zip_nil_left, List.mem_cons, List.not_mem_nil, or_false] at hp
      rcases hp with rfl | rfl <;> exact ⟨by unfold Ordinary; decide, by decide, by decide +kernel⟩)
  exact ⟨s', h, (h' 0 "A").trans rfl, (h' 0 "B").trans rfl, (h' 0 "X").trans rfl⟩

/-- `A B C←100` fails -/
example : Evals sysOps (.eval (.app (.der "←" (some (.strand (["A", "B", "C"].map .var))) none) none (.lit 100) false)) s0 (.error .err) s0 :=
  C63_nonconforming sysOps ["A", "B", "C"] (.lit 100) false (by simp) s0 s0 s0 (.data 100) [.data 1, .data 2] ⟨5, rfl⟩ ⟨5, rfl⟩ (by decide) (by decide)

end Demo

end Iv

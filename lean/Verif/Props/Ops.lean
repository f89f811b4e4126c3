import Verif.Model.Ops
import Verif.Lemmas.Effect
/-
C29 each, C31 power, C32 commute, compose and trains.
-/
namespace Iv
variable {m : Type → Type} [Monad m] [LawfulMonad m] {α V : Type}

theorem forLoopM_read {β γ} (l : List β) (g : β → ExceptT Fail m γ) (n : Nat) (hn : n = l.length) :
    forLoopM (fun i => do let x ← ofRes (sliceAt l i); g x) n 0 = l.mapM g := by
  subst hn
  rw [forLoopM_eq]
  conv => rhs; rw [show l = (List.range l.length).filterMap (fun (i : Nat) => l[i]?) from by
    apply List.ext_getElem?
    intro i
    have key : (List.range l.length).map (fun (i : Nat) => l[i]?) = l.map some := by
      apply List.ext_getElem?
      intro i
      rw [List.getElem?_map, List.getElem?_map]
      by_cases hi : i < l.length
      · rw [List.getElem?_range hi]; simp [hi]
      · rw [List.getElem?_eq_none (by simpa using hi), List.getElem?_eq_none (by omega)]; rfl
    have h2 : (List.range l.length).filterMap (fun (i : Nat) => l[i]?) = ((List.range l.length).map (fun (i : Nat) => l[i]?)).filterMap id := by
      rw [List.filterMap_map]; rfl
    rw [h2, key, List.filterMap_map]; simp]
  have hall : ∀ i ∈ List.range l.length, i < l.length := by simp
  generalize List.range l.length = r at hall
  induction r with
  | nil => rfl
  | cons i r ih =>
    have hi := hall i (by simp)
    rw [List.mapM_cons, ih (fun j hj => hall j (by simp [hj])), List.filterMap_cons, List.getElem?_eq_getElem hi]
    simp [sliceAt_ok hi, ofRes_ok]

/-- Specification: one call of `f` on scalar elements, whose result must be a scalar. -/
def callEl (f : Fn m (Val α)) (l : Option α) (r : α) : ExceptT Fail m α := do
  match ← f (l.map .scalar) (.scalar r) with
  | .scalar y => pure y
  | _ => throw .err

theorem size_pos_shape {a : Arr α} (hw : a.WF) (hs : a.shape ≠ []) : prod a.shape = a.data.length := by
  rw [prod_eq_size hs, hw]

/-- C29: `f¨A` calls f once on every element in row-major order and returns the results in the shape of A;
on a scalar it is f itself. -/
theorem C29_each_monadic (uk : List α → Kind) (f : Fn m (Val α)) (k : Kind) (a : Arr α) (hw : a.WF) (hs : a.shape ≠ [])
    (hne : a.data ≠ []) :
    each1 uk f (.arr k a) = (do
      let d ← a.data.mapM (fun x => callEl f none x)
      return .arr (uk d) ⟨a.shape, d⟩) ∧
    ∀ x, each1 uk f (.scalar x) = f none (.scalar x) := by
  refine ⟨?_, fun _ => rfl⟩
  unfold each1
  simp only
  rw [if_neg (by rw [List.length_eq_zero_iff]; exact hne)]
  rw [forLoopM_read a.data (fun x => eachCall f none (.scalar x)) _ (size_pos_shape hw hs)]
  rfl

/-- C29: `L f¨R` for arrays of equal shape calls f on corresponding elements in row-major order. -/
theorem C29_each_dyadic (uk : List α → Kind) (f : Fn m (Val α)) (k k' : Kind) (a b : Arr α) (ha : a.WF) (hb : b.WF)
    (hs : a.shape = b.shape) (hr : a.shape ≠ []) (hne : a.data ≠ []) :
    each2 uk f (.arr k a) (.arr k' b) = (do
      let d ← (a.data.zip b.data).mapM (fun p => callEl f (some p.1) p.2)
      return .arr (uk d) ⟨b.shape, d⟩) := by
  have hlen : a.data.length = b.data.length := by rw [ha, hb, hs]
  have h0 : a.data.length ≠ 0 := by rw [Ne, List.length_eq_zero_iff]; exact hne
  unfold each2
  simp only
  rw [if_neg (by omega), if_neg h0, if_neg (by rw [hs]; simp), if_neg (by simp [hs])]
  rw [size_pos_shape hb (by rw [← hs]; exact hr)]
  have h1 := forLoopM_read (a.data.zip b.data) (fun p => callEl f (some p.1) p.2) b.data.length (by rw [List.length_zip]; omega)
  rw [← h1, forLoopM_eq, forLoopM_eq]
  congr 1
  apply mapM_congr'
  intro i hi
  have hi : i < b.data.length := by simpa using hi
  rw [sliceAt_ok hi, sliceAt_ok (show i < a.data.length by omega), sliceAt_ok (show i < (a.data.zip b.data).length by rw [List.length_zip]; omega)]
  simp only [ofRes_ok, pure_bind, List.getElem_zip]
  rfl

/-- C29: a scalar side is extended: it is passed to every call. -/
theorem C29_each_scalar (uk : List α → Kind) (f : Fn m (Val α)) (k : Kind) (a : Arr α) (x : α) (ha : a.WF)
    (hr : a.shape ≠ []) (hne : a.data ≠ []) :
    each2 uk f (.scalar x) (.arr k a) = (do
      let d ← a.data.mapM (fun y => callEl f (some x) y)
      return .arr (uk d) ⟨a.shape, d⟩) ∧
    each2 uk f (.arr k a) (.scalar x) = (do
      let d ← a.data.mapM (fun y => callEl f (some y) x)
      return .arr (uk d) ⟨a.shape, d⟩) ∧
    ∀ y, each2 uk f (.scalar x) (.scalar y) = f (some (.scalar x)) (.scalar y) := by
  have h0 : a.data.length ≠ 0 := by rw [Ne, List.length_eq_zero_iff]; exact hne
  refine ⟨?_, ?_, fun _ => rfl⟩
  · unfold each2
    simp only
    rw [if_neg h0, forLoopM_read a.data (fun y => eachCall f (some (.scalar x)) (.scalar y)) _ (size_pos_shape ha hr)]
    rfl
  · unfold each2
    simp only
    rw [if_neg h0, forLoopM_read a.data (fun y => eachCall f (some (.scalar y)) (.scalar x)) _ (size_pos_shape ha hr)]
    rfl

/-- C29: arrays with elements but of different shapes are rejected without calling f. -/
theorem C29_each_mismatch (uk : List α → Kind) (f : Fn m (Val α)) (k k' : Kind) (a b : Arr α) (h : a.shape ≠ b.shape)
    (ha : a.data ≠ []) (hb : b.data ≠ []) : each2 uk f (.arr k a) (.arr k' b) = throw .err := by
  unfold each2
  simp only
  rw [if_neg (by rw [List.length_eq_zero_iff]; exact hb), if_neg (by rw [List.length_eq_zero_iff]; exact ha)]
  split
  · rfl
  · rfl

/-- C29: without elements on one side f is not called and the result is empty. -/
theorem C29_each_empty (uk : List α → Kind) (f : Fn m (Val α)) (k k' : Kind) (a b : Arr α) (ha : a.data = []) :
    each1 uk f (.arr k a) = pure .empty ∧ each2 uk f (.arr k a) (.arr k' b) = pure .empty ∧
      each2 uk f (.arr k' b) (.arr k a) = pure .empty := by
  refine ⟨by simp [each1, ha], ?_, by simp [each2, ha]⟩
  simp [each2, ha]

/-- C29: the first failing application aborts: if f fails on the element `y` after the elements `xs`, the calls on
`xs` happen in order, and the elements `zs` behind are not touched. -/
theorem C29_each_abort (uk : List α → Kind) (f : Fn m (Val α)) (k : Kind) (s : List Nat) (xs zs : List α) (y : α) (e : Fail)
    (hw : (Arr.mk s (xs ++ y :: zs)).WF) (hs : s ≠ []) (hf : callEl f none y = throw e) :
    each1 uk f (.arr k ⟨s, xs ++ y :: zs⟩) = (do let _ ← xs.mapM (fun x => callEl f none x); throw e) := by
  rw [(C29_each_monadic uk f k ⟨s, xs ++ y :: zs⟩ hw hs (by simp)).1]
  simp only [List.mapM_append, List.mapM_cons, hf, throw_bind', bind_assoc]

/-- C29 for lists: f is called on the items in order; two lists must have equal length; an argument that is
not a list is passed to every call (only on the right side: see the next theorem). -/
theorem C29_list (f : Fn m V) (l r : List V) (y : V) :
    eachList f l = l.mapM (fun x => f none x) ∧
    (l.length = r.length → eachList2 f (.inl l) (.inl r) = (l.zip r).mapM (fun p => f (some p.1) p.2)) ∧
    (l.length ≠ r.length → eachList2 f (.inl l) (.inl r) = throw .err) ∧
    eachList2 f (.inl l) (.inr y) = l.mapM (fun x => f (some x) y) := by
  refine ⟨forLoopM_read l (fun x => f none x) _ rfl, ?_, ?_, ?_⟩
  · intro h
    unfold eachList2
    simp only [h, ne_eq, not_true, decide_false, Bool.false_eq_true, if_false]
    have h1 := forLoopM_read (l.zip r) (fun p => f (some p.1) p.2) r.length (by rw [List.length_zip]; omega)
    rw [← h1, forLoopM_eq, forLoopM_eq]
    apply mapM_congr'
    intro i hi
    have hi : i < r.length := by simpa using hi
    rw [sliceAt_ok hi, sliceAt_ok (show i < l.length by omega), sliceAt_ok (show i < (l.zip r).length by rw [List.length_zip]; omega)]
    simp only [ofRes_ok, pure_bind, List.getElem_zip]
  · intro h
    unfold eachList2
    have : r.length ≠ l.length := fun e => h e.symm
    simp [this]
  · unfold eachList2
    simp only [Bool.false_eq_true, if_false, pure_bind]
    exact forLoopM_read l (fun x => f (some x) y) _ rfl

/-- Counterexample to the extension on the left side: `A f¨List` is rejected for every non-empty list (the size is only
taken from L). -/
theorem C29_list_left_scalar_rejected (f : Fn m V) (x : V) (r : List V) (h : r ≠ []) :
    eachList2 f (.inr x) (.inl r) = throw .err := by
  unfold eachList2
  have : r.length ≠ 0 := by rw [Ne, List.length_eq_zero_iff]; exact h
  simp [this]

/-! ### C31 -/

theorem powerLoop_eq (f : Fn m V) (L : Option V) (n : Nat) (R : V) :
    powerLoop f L n R = (List.range n).foldlM (fun v _ => f L v) R := by
  have h : ∀ (l : List Nat) (R : V), powerLoop f L l.length R = l.foldlM (fun v _ => f L v) R := by
    intro l
    induction l with
    | nil => intro R; rfl
    | cons x l ih => intro R; simp only [List.length_cons, powerLoop, List.foldlM_cons, ih]
  have := h (List.range n) R
  rwa [List.length_range] at this

/-- C31: `f⍣n R` makes exactly n successive calls, each on the result of the one before (a fold over n
rounds, in any monad); a negative n is an error. -/
theorem C31_power (f : Fn m V) (L : Option V) (n : Nat) (R : V) :
    powerInt f n L R = (List.range n).foldlM (fun v _ => f L v) R ∧
    ∀ k : Int, k < 0 → powerInt f k L R = throw .err := by
  refine ⟨?_, fun k hk => by simp [powerInt, hk]⟩
  unfold powerInt
  rw [if_neg (by omega)]
  split
  · have : n = 0 := by omega
    subst this; rfl
  · rw [← powerLoop_eq, Int.toNat_natCast]

/-- C31: powers add: `f⍣(n+k)` is `f⍣k` after `f⍣n`. -/
theorem C31_power_add (f : Fn m V) (L : Option V) (n k : Nat) (R : V) :
    powerInt f ((n + k : Nat) : Int) L R = (do let v ← powerInt f n L R; powerInt f k L v) := by
  have hp : ∀ (n : Nat) R, powerInt f n L R = powerLoop f L n R := by
    intro n R
    rw [(C31_power f L n R).1, powerLoop_eq]
  simp only [hp]
  induction n generalizing R with
  | zero => simp [powerLoop]
  | succ n ih => rw [show n + 1 + k = (n + k) + 1 by omega]; simp [powerLoop, ih]

/-- n-fold application -/
def iter {V} (f : V → V) : Nat → V → V
  | 0, x => x
  | n + 1, x => f (iter f n x)

theorem powerFnLoop_stop (toInt : V → Option Int) (f : V → V) (g : V → V → V) (L : Option V) (j : Nat) (left : Nat) (hj : j < left) (x : V)
    (hn : ∀ i, i ≤ j → ∃ n, toInt (g (iter f (i + 1) x) (iter f i x)) = some n ∧ (n = 1 ↔ i = j)) :
    powerFnLoop (m := m) toInt (fun _ r => pure (f r)) (fun l r => pure (match l with | some l => g l r | none => r)) L left x =
      pure (iter f (j + 1) x) := by
  have hshift : ∀ i x, iter f i (f x) = iter f (i + 1) x := by
    intro i
    induction i with
    | zero => intro x; rfl
    | succ i ih => intro x; show f (iter f i (f x)) = _; rw [ih]; rfl
  induction j generalizing left x with
  | zero =>
    obtain ⟨left, rfl⟩ : ∃ l, left = l + 1 := ⟨left - 1, by omega⟩
    obtain ⟨n, h1, h2⟩ := hn 0 (Nat.le_refl _)
    simp only [iter] at h1
    simp only [powerFnLoop, pure_bind, h1]
    rw [if_pos (h2.2 rfl)]; rfl
  | succ j ih =>
    obtain ⟨left, rfl⟩ : ∃ l, left = l + 1 := ⟨left - 1, by omega⟩
    obtain ⟨n, h1, h2⟩ := hn 0 (by omega)
    simp only [iter] at h1
    simp only [powerFnLoop, pure_bind, h1]
    rw [if_neg (fun h => absurd (h2.1 h) (by omega)), ih left (by omega) (f x), hshift]
    intro i hi
    obtain ⟨n, h3, h4⟩ := hn (i + 1) (by omega)
    refine ⟨n, by rw [hshift, hshift]; exact h3, by rw [h4]; omega⟩

/-- C31: `f⍣g` returns the first iterate `x_{j+1} = f x_j` for which `x_{j+1} g x_j` is 1, provided this
happens within 1001 rounds. -/
theorem C31_until (toInt : V → Option Int) (f : V → V) (g : V → V → V) (L : Option V) (R : V) (j : Nat) (hj : j ≤ 1000)
    (hn : ∀ i, i ≤ j → ∃ n, toInt (g (iter f (i + 1) R) (iter f i R)) = some n ∧ (n = 1 ↔ i = j)) :
    powerFn (m := m) toInt (fun _ r => pure (f r)) (fun l r => pure (match l with | some l => g l r | none => r)) L R =
      pure (iter f (j + 1) R) :=
  powerFnLoop_stop toInt f g L j _ (by omega) R hn

theorem powerFnLoop_limit (toInt : V → Option Int) (f : V → V) (g : V → V → V) (L : Option V) (left : Nat) (x : V)
    (hn : ∀ i, i < left → ∃ n, toInt (g (iter f (i + 1) x) (iter f i x)) = some n ∧ n ≠ 1) :
    powerFnLoop (m := m) toInt (fun _ r => pure (f r)) (fun l r => pure (match l with | some l => g l r | none => r)) L left x = throw .err := by
  have hshift : ∀ i x, iter f i (f x) = iter f (i + 1) x := by
    intro i
    induction i with
    | zero => intro x; rfl
    | succ i ih => intro x; show f (iter f i (f x)) = _; rw [ih]; rfl
  induction left generalizing x with
  | zero => rfl
  | succ left ih =>
    obtain ⟨n, h1, h2⟩ := hn 0 (by omega)
    simp only [iter] at h1
    simp only [powerFnLoop, pure_bind, h1, if_neg h2]
    apply ih
    intro i hi
    obtain ⟨n, h3, h4⟩ := hn (i + 1) (by omega)
    exact ⟨n, by rw [hshift, hshift]; exact h3, h4⟩

/-- C31: if the condition is not met in 1001 rounds, an error is reported. -/
theorem C31_limit (toInt : V → Option Int) (f : V → V) (g : V → V → V) (L : Option V) (R : V)
    (hn : ∀ i, i ≤ 1000 → ∃ n, toInt (g (iter f (i + 1) R) (iter f i R)) = some n ∧ n ≠ 1) :
    powerFn (m := m) toInt (fun _ r => pure (f r)) (fun l r => pure (match l with | some l => g l r | none => r)) L R = throw .err :=
  powerFnLoop_limit toInt f g L _ R (fun i hi => hn i (by omega))

/-- C31, with effects: one round of `f⍣g` calls f on the value, then g with the new value on the left and the
previous one on the right, and stops exactly if that gives 1.  `rounds` is the number of rounds still allowed. -/
theorem C31_round (toInt : V → Option Int) (f g : Fn m V) (L : Option V) (rounds : Nat) (R : V) :
    powerFnLoop toInt f g L (rounds + 1) R = (do
      let new ← f L R
      let c ← g (some new) R
      match toInt c with
      | none => throw .err
      | some n => if n = 1 then pure new else powerFnLoop toInt f g L rounds new) := rfl

/-! ### C32 -/

/-- C32: `L f⍨R` is `R f L`, `f⍨R` is `R f R`: one call of f. -/
theorem C32_commute (f : Fn m V) (l r : V) :
    commute f (some l) r = f (some r) l ∧ commute f none r = f (some r) r := ⟨rfl, rfl⟩

theorem C32_commute_twice (f : Fn m V) (l r : V) : commute (commute f) (some l) r = f (some l) r := rfl

/-- C32: compose.  `f∘g R` is `f (g R)`, `L f∘g R` is `L f (g R)`, `A∘g R` is `A g R`, `(f∘B) R` is `R f B`, and all
other uses are errors. -/
theorem C32_compose (f g : Fn m V) (a b l r : V) :
    compose (.fn f) (.fn g) none r = (do let v ← g none r; f none v) ∧
    compose (.fn f) (.fn g) (some l) r = (do let v ← g none r; f (some l) v) ∧
    compose (.val a) (.fn g) none r = g (some a) r ∧
    compose (.fn f) (.val b) none r = f (some r) b ∧
    compose (.val a) (.fn g) (some l) r = throw .err ∧
    compose (.fn f) (.val b) (some l) r = throw .err ∧
    (∀ L, compose (m := m) (.val a) (.val b) L r = throw .err) := by
  refine ⟨rfl, rfl, rfl, rfl, rfl, rfl, ?_⟩
  intro L; cases L <;> rfl

/-- The left tine of a fork: a function is called with both arguments, another value is used as is. -/
def tine (f : Opd m V) (L : Option V) (R : V) : ExceptT Fail m V :=
  match f with
  | .fn f => f L R
  | .val v => pure v

/-- Specification of a train `f1 g1 f2 g2 … fk gk h` of odd length: every fi, and last h, is applied to the arguments
of the train, in this order, and the results are joined from the right by the gi. -/
def oddTrain (fgs : List (Opd m V × Fn m V)) (h : Fn m V) (L : Option V) (R : V) : ExceptT Fail m V := do
  let vs ← fgs.mapM (fun p => tine p.1 L R)
  let z ← h L R
  (vs.zip (fgs.map Prod.snd)).reverse.foldlM (fun acc p => p.2 (some p.1) acc) z

/-- the items of the train in order -/
def oddItems (fgs : List (Opd m V × Fn m V)) (h : Fn m V) : List (Opd m V) :=
  fgs.flatMap (fun p => [p.1, .fn p.2]) ++ [.fn h]

theorem oddItems_length (fgs : List (Opd m V × Fn m V)) (h : Fn m V) : (oddItems fgs h).length = 2 * fgs.length + 1 := by
  induction fgs with
  | nil => rfl
  | cons p l ih => simp only [oddItems, List.flatMap_cons] at *; simp only [List.length_append, List.length_cons, List.length_nil] at *; omega

theorem oddTrain_cons (p : Opd m V × Fn m V) (l : List (Opd m V × Fn m V)) (h : Fn m V) (L : Option V) (R : V) :
    oddTrain (p :: l) h L R = (do
      let v ← tine p.1 L R
      let r ← oddTrain l h L R
      p.2 (some v) r) := by
  simp only [oddTrain, List.mapM_cons, bind_assoc, pure_bind, List.map_cons, List.zip_cons_cons, List.reverse_cons,
    List.foldlM_append, List.foldlM_cons, List.foldlM_nil, bind_pure]

/-- C32: trains of odd length (forks), of any length, are evaluated as specified by `oddTrain`. -/
theorem C32_train_odd (fgs : List (Opd m V × Fn m V)) (hne : fgs ≠ []) (h : Fn m V) (L : Option V) (R : V) :
    trainCall (oddItems fgs h) L R = oddTrain fgs h L R := by
  induction fgs with
  | nil => exact absurd rfl hne
  | cons p l ih =>
    rw [oddTrain_cons]
    cases l with
    | nil =>
      obtain ⟨f, g⟩ := p
      simp only [oddItems, List.flatMap_cons, List.flatMap_nil, List.append_nil, List.cons_append, List.nil_append, trainCall, forkCall]
      simp only [oddTrain, List.mapM_nil, pure_bind, List.map_nil, List.zip_nil_right, List.reverse_nil, List.foldlM_nil, bind_pure]
      cases f <;> simp [tine]
    | cons q l =>
      have hi := ih (by simp)
      have hl := oddItems_length (q :: l) h
      have hitems : oddItems (p :: q :: l) h = p.1 :: .fn p.2 :: oddItems (q :: l) h := by
        simp [oddItems]
      rw [hitems]
      obtain ⟨i1, i2, i3, rest, he⟩ : ∃ i1 i2 i3 rest, oddItems (q :: l) h = i1 :: i2 :: i3 :: rest := by
        cases l <;> exact ⟨_, _, _, _, rfl⟩
      rw [he] at hi hl ⊢
      simp only [trainCall]
      rw [if_neg (by simp only [List.length_cons] at *; omega)]
      simp only [forkCall, hi]
      cases p.1 <;> simp [tine]

/-- C32: a train of even length applies its first function to the result of the rest of the train. -/
theorem C32_train_even (e : Fn m V) (fgs : List (Opd m V × Fn m V)) (h : Fn m V) (L : Option V) (R : V) :
    trainCall (.fn e :: oddItems fgs h) L R = (do
      let v ← oddTrain fgs h L R
      e none v) := by
  cases fgs with
  | nil =>
    simp only [oddItems, List.flatMap_nil, List.nil_append, trainCall, atopCall]
    simp [oddTrain]
  | cons p l =>
    have ho := C32_train_odd (p :: l) (by simp) h
    have hl := oddItems_length (p :: l) h
    obtain ⟨i1, i2, i3, rest, he⟩ : ∃ i1 i2 i3 rest, oddItems (p :: l) h = i1 :: i2 :: i3 :: rest := by
      cases l <;> exact ⟨_, _, _, _, rfl⟩
    rw [he] at ho hl ⊢
    simp only [trainCall]
    rw [if_pos (by simp only [List.length_cons] at *; omega)]
    simp only [atopCall, ho]

/-- C32: the two basic trains written out: `(g h)` is an atop, `(f g h)` a fork. -/
theorem C32_basic (f g h : Fn m V) (A : V) (L : Option V) (R : V) :
    trainCall [.fn g, .fn h] L R = (do let v ← h L R; g none v) ∧
    trainCall [.fn f, .fn g, .fn h] L R = (do let x ← f L R; let y ← h L R; g (some x) y) ∧
    trainCall [.val A, .fn g, .fn h] L R = (do let y ← h L R; g (some A) y) := by
  refine ⟨rfl, rfl, ?_⟩
  simp [trainCall, forkCall]

/-! ### Concrete cases -/
def demoFn (f : Int → Int) : Fn Id Int := fun _ r => pure (f r)
def demoFn2 (f : Int → Int → Int) : Fn Id Int := fun l r => pure (f (l.getD 0) r)
example : powerInt (demoFn (2 * ·)) 5 none 1 = pure 32 := by rfl
example : powerFn (m := Id) (V := Int) some (fun _ r => pure (r / 2)) (demoFn2 (fun x y => if x = y then 1 else 0)) none 9 = pure 0 := by rfl
/-- average: +/ ÷ ⍴ as a fork, and a longer train -/
example : trainCall [.fn (demoFn (· + 1)), .fn (demoFn2 (· * ·)), .fn (demoFn (· - 1))] none 7 = pure 48 := by rfl
example : trainCall [.fn (demoFn (- ·)), .val 2, .fn (demoFn2 (· + ·)), .fn (demoFn (· + 1)), .fn (demoFn2 (· * ·)), .fn (demoFn (· - 1))] none 7 = pure (-50) := by rfl
example : each1 (m := Id) (α := Int) (fun _ => .int) (fun _ r => match r with | .scalar x => pure (.scalar (x * x)) | v => pure v) (.arr .int ⟨[3], [1, 2, 3]⟩)
    = pure (.arr .int ⟨[3], [1, 4, 9]⟩) := by rfl
end Iv

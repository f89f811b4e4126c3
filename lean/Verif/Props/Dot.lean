import Verif.Lemmas.Dot
/-
C28 inner and outer product.
-/
namespace Iv
variable {m : Type → Type} [Monad m] [LawfulMonad m] {α : Type}

/-- reading all elements of an array in row-major order -/
theorem readAll_eq {a : Arr α} (hw : a.WF) {M : Type → Type} [Monad M] [LawfulMonad M] {β} (k : α → M β) (rd : List Nat → M α)
    (hrd : ∀ idx, InB a.shape idx → ∀ v, a.get? idx = some v → rd idx = pure v) :
    (allIdx a.shape).mapM (fun idx => do let x ← rd idx; k x) = a.data.mapM k := by
  have : a.data = (allIdx a.shape).filterMap a.get? := by
    apply List.ext_getElem?
    intro i
    have key : (allIdx a.shape).map a.get? = a.data.map some := by
      apply List.ext_getElem?
      intro i
      rw [allIdx_eq, List.map_map, List.getElem?_map, List.getElem?_map]
      by_cases hi : i < size a.shape
      · rw [List.getElem?_range hi, List.getElem?_eq_getElem (by rw [hw]; exact hi)]
        simp only [Option.map_some, Function.comp_apply]
        rw [Arr.get?_of_inB (unflat_inB hi), flat_unflat hi, List.getElem?_eq_getElem]
      · rw [List.getElem?_eq_none (by simpa using hi), List.getElem?_eq_none (by rw [hw]; omega)]
        rfl
    have h2 : (allIdx a.shape).filterMap a.get? = ((allIdx a.shape).map a.get?).filterMap id := by
      rw [List.filterMap_map]; rfl
    rw [h2, key, List.filterMap_map]
    simp
  rw [this]
  have hall : ∀ idx ∈ allIdx a.shape, ∃ v, a.get? idx = some v := by
    intro idx hi
    exact Option.isSome_iff_exists.1 (Arr.get?_isSome hw (mem_allIdx.1 hi))
  have hin : ∀ idx ∈ allIdx a.shape, InB a.shape idx := fun idx hi => mem_allIdx.1 hi
  generalize allIdx a.shape = l at hall hin
  clear this
  induction l with
  | nil => rfl
  | cons idx l ih =>
    obtain ⟨v, hv⟩ := hall idx (by simp)
    rw [List.mapM_cons, List.filterMap_cons, hv]
    simp only [List.mapM_cons, hrd idx (hin idx (by simp)) v hv, pure_bind]
    rw [ih (fun i hi => hall i (by simp [hi])) (fun i hi => hin i (by simp [hi]))]

/-- C28: `L∘.g R` for arrays calls g on every pair of an element of L and an element of R, in row-major
order of (index of L, index of R); the result has shape (⍴L),⍴R. -/
theorem C28_outer (uk : List α → Kind) (g : α → α → ExceptT Fail m α) (k k' : Kind) (a b : Arr α) (ha : a.WF) (hb : b.WF)
    (har : a.shape ≠ []) (hbr : b.shape ≠ []) :
    outer uk g (.arr k a) (.arr k' b) = (do
      let d ← (a.data.flatMap (fun x => b.data.map (fun y => (x, y)))).mapM (fun p => g p.1 p.2)
      return .arr (uk d) ⟨a.shape ++ b.shape, d⟩) := by
  unfold outer
  simp only [toArrayVal, newIdxConverter_ok har, newIdxConverter_ok hbr, ofRes_ok, pure_bind]
  rw [prod_eq_size (by simp [har]), odoLoopM_eq]
  congr 1
  simp only [List.length_replicate]
  -- both sides as nested loops
  have h1 : ∀ {M : Type → Type} [Monad M] [LawfulMonad M] {β γ δ : Type} (l : List β) (w : β → List γ) (h : γ → M δ),
      (l.flatMap w).mapM h = (do let r ← l.mapM (fun x => (w x).mapM h); pure r.flatten) := by
    intro M _ _ β γ δ l w h
    induction l with
    | nil => simp
    | cons x xs ih => simp [List.flatMap_cons, List.mapM_append, ih]
  rw [allIdx_append, h1, h1]
  have h2 := readAll_eq (M := ExceptT Fail m) ha (fun x => b.data.mapM (fun y => g x y))
    (fun idx => ofRes (sliceAt a.data (icIndex (strides a.shape) idx))) (by
      intro idx hi v hv
      rw [icIndex_strides hi.length_eq]
      rw [Arr.get?_of_inB hi] at hv
      rw [sliceAt_eq_ok.2 hv, ofRes_ok])
  have h3 : (a.data.mapM fun x => List.mapM (fun p => g p.1 p.2) (List.map (fun y => (x, y)) b.data)) =
      a.data.mapM (fun x => b.data.mapM (fun y => g x y)) := by
    apply mapM_congr'; intro x _; rw [mapM_map']
  rw [h3, ← h2]
  congr 1
  apply mapM_congr'
  intro i hi
  have hib := mem_allIdx.1 hi
  rw [mapM_map']
  obtain ⟨v, hv⟩ := Option.isSome_iff_exists.1 (Arr.get?_isSome ha hib)
  have hv' := hv
  rw [Arr.get?_of_inB hib] at hv'
  have hx : sliceAt a.data (icIndex (strides a.shape) i) = .ok v := by
    rw [icIndex_strides hib.length_eq]; exact sliceAt_eq_ok.2 hv'
  rw [hx, ofRes_ok, pure_bind]
  have h4 := readAll_eq (M := ExceptT Fail m) hb (fun y => g v y)
    (fun idx => ofRes (sliceAt b.data (icIndex (strides b.shape) idx))) (by
      intro idx hi v hv
      rw [icIndex_strides hi.length_eq]
      rw [Arr.get?_of_inB hi] at hv
      rw [sliceAt_eq_ok.2 hv, ofRes_ok])
  rw [← h4]
  apply mapM_congr'
  intro j _
  rw [List.take_append_of_le_length (by have := hib.length_eq; omega), List.drop_append_of_le_length (by have := hib.length_eq; omega),
    List.take_of_length_le (by have := hib.length_eq; omega), List.drop_of_length_le (by have := hib.length_eq; omega), hx, List.nil_append, ofRes_ok, pure_bind]

/-- C28: a scalar argument of the outer product is treated as a one-element vector. -/
theorem C28_outer_scalar (uk : List α → Kind) (g : α → α → ExceptT Fail m α) (x : α) (V : Val α) :
    outer uk g (.scalar x) V = outer uk g (.arr (uk [x]) ⟨[1], [x]⟩) V ∧
    outer uk g V (.scalar x) = outer uk g V (.arr (uk [x]) ⟨[1], [x]⟩) := by
  constructor <;> rfl

/-- C28: with a function that has no effects and does not fail, the element at index (i,j) of `L∘.g R`
is `L[i] g R[j]`. -/
theorem C28_outer_element (uk : List α → Kind) (g : α → α → α) (k k' : Kind) (a b : Arr α) (ha : a.WF) (hb : b.WF)
    (har : a.shape ≠ []) (hbr : b.shape ≠ []) :
    ∃ kr r, outer (m := m) uk (fun x y => pure (g x y)) (.arr k a) (.arr k' b) = pure (.arr kr r) ∧ r.WF ∧
      r.shape = a.shape ++ b.shape ∧
      ∀ i j x y, a.get? i = some x → b.get? j = some y → r.get? (i ++ j) = some (g x y) := by
  rw [C28_outer uk _ k k' a b ha hb har hbr]
  rw [mapM_pure' (fun p : α × α => g p.1 p.2), pure_bind]
  refine ⟨_, _, rfl, ?_, rfl, ?_⟩
  · unfold Arr.WF
    simp only [List.length_map, List.length_flatMap, List.map_const', List.sum_replicate_nat, size_append]
    rw [ha, hb]
  · intro i j x y hx hy
    have hi : InB a.shape i := Decidable.byContradiction (fun h => by simp [Arr.get?, h] at hx)
    have hj : InB b.shape j := Decidable.byContradiction (fun h => by simp [Arr.get?, h] at hy)
    rw [Arr.get?_of_inB hi] at hx
    rw [Arr.get?_of_inB hj] at hy
    have hij : InB (a.shape ++ b.shape) (i ++ j) := (InB_append hi.length_eq).2 ⟨hi, hj⟩
    rw [Arr.get?_of_inB hij, flat_append' hi.length_eq, List.map_flatMap]
    simp only [List.map_map, Function.comp_def]
    rw [← hb]
    have hjl : flat b.shape j < b.data.length := by rw [hb]; exact flat_lt hj
    generalize flat b.shape j = q at hy hjl
    generalize flat a.shape i = p at hx
    generalize a.data = A at hx
    induction A generalizing p with
    | nil => simp at hx
    | cons z A ih =>
      rw [List.flatMap_cons, List.getElem?_append]
      cases p with
      | zero =>
        simp at hx; subst hx
        rw [if_pos (by simpa using hjl)]
        simp [hy]
      | succ p =>
        rw [if_neg (by simp only [List.length_map, Nat.add_mul]; omega)]
        simp at hx
        have := ih p hx
        simp only [List.length_map]
        rw [show (p + 1) * b.data.length + q - b.data.length = p * b.data.length + q by rw [Nat.add_mul]; omega]
        exact this

theorem zip_getElem?_some {β γ} {l : List β} {l' : List γ} {i : Nat} {p : β × γ} (h : (l.zip l')[i]? = some p) :
    l[i]? = some p.1 ∧ l'[i]? = some p.2 := by
  rw [List.getElem?_zip_eq_some] at h; exact h

/-- C28: for two vectors of equal length `L f.g R` is `L[1] g R[1] f (L[2] g R[2] f …)`. -/
theorem C28_inner_vectors (uk : List α → Kind) (f g : α → α → ExceptT Fail m α) (k k' : Kind) (x y : List α) (h : x.length = y.length) :
    inner uk f g (.arr k ⟨[x.length], x⟩) (.arr k' ⟨[y.length], y⟩) = (do let v ← ifold f g (x.zip y); return .scalar v) := by
  unfold inner innerArr
  simp only [List.length_singleton, Nat.sub_self, List.getD_cons_zero, List.headD_cons]
  rw [if_neg (by omega), if_neg (by omega), if_pos ⟨trivial, trivial⟩]
  rw [← innerLoop_eq f g (fun k => do
        let a ← sliceAt x k
        let b ← sliceAt y k
        return (a, b)) (x.zip y)]
  · simp [h]
  · intro i p hp
    obtain ⟨h1, h2⟩ := zip_getElem?_some hp
    rw [sliceAt_eq_ok.2 h1, sliceAt_eq_ok.2 h2]; rfl

/-- C28: `L f.g R` of two arrays, not both vectors, with equal inner axis lengths: the result has the shape
(¯1↓⍴L),1↓⍴R, its items are computed in row-major order, and the item at (i,j) is the f-g-fold of the vector `L[i;]`
(along the last axis of L) with the vector `R[;j]` (along the first axis of R). -/
theorem C28_inner (uk : List α → Kind) (f g : α → α → ExceptT Fail m α) (k k' : Kind) (a b : Arr α) (ha : a.WF) (hb : b.WF)
    (ls rs : List Nat) (n : Nat) (has : a.shape = ls ++ [n]) (hbs : b.shape = n :: rs) (hne : ls ++ rs ≠ []) :
    inner uk f g (.arr k a) (.arr k' b) = (do
      let d ← (allIdx (ls ++ rs)).mapM (fun idx =>
        ifold f g ((a.line ls.length (idx.take ls.length)).zip (b.line 0 (idx.drop ls.length))))
      return .arr (uk d) ⟨ls ++ rs, d⟩) := by
  unfold inner innerArr
  have hal : a.shape.length = ls.length + 1 := by rw [has]; simp
  have hbl : b.shape.length = rs.length + 1 := by rw [hbs]; simp
  have hlen : ls.length + rs.length ≠ 0 := by
    intro h
    apply hne
    have h1 : ls.length = 0 := by omega
    have h2 : rs.length = 0 := by omega
    rw [List.length_eq_zero_iff.1 h1, List.length_eq_zero_iff.1 h2]; rfl
  have hn : a.shape.getD (a.shape.length - 1) 0 = n := by
    rw [hal, has]; simp
  have hh : b.shape.headD 0 = n := by rw [hbs]; rfl
  simp only
  rw [if_neg (by omega), hn, hh, if_neg (by simp), if_neg (by omega)]
  have hsh : a.shape.take (a.shape.length - 1) ++ b.shape.tail = ls ++ rs := by
    rw [hal, has, hbs]; simp
  have hane : a.shape ≠ [] := by rw [has]; simp
  have hbne : b.shape ≠ [] := by rw [hbs]; simp
  rw [hsh, newIdxConverter_ok hne, newIdxConverter_ok hane, newIdxConverter_ok hbne]
  simp only [ofRes_ok, pure_bind]
  congr 1
  rw [prod_eq_size hne, forLoopM_eq, allIdx_eq, mapM_map']
  apply mapM_congr'
  intro i hi
  have hi : i < size (ls ++ rs) := by simpa using hi
  rw [icIndexes_strides]
  have hib := unflat_inB hi
  generalize unflat (ls ++ rs) i = idx at hib
  have hil := hib.length_eq
  rw [List.length_append] at hil
  have hsplit : idx = idx.take ls.length ++ idx.drop ls.length := (List.take_append_drop _ _).symm
  have htl : (idx.take ls.length).length = ls.length := by rw [List.length_take]; omega
  rw [hsplit, InB_append htl] at hib
  rw [show a.shape.length - 1 = ls.length by omega]
  have hea : a.shape.eraseIdx ls.length = ls := by
    rw [has, List.eraseIdx_append_of_length_le (Nat.le_refl _)]; simp
  have heb : b.shape.eraseIdx 0 = rs := by rw [hbs]; rfl
  obtain ⟨_, l1, l2⟩ := readLine_eq ha (k := ls.length) (by omega) (idx := idx.take ls.length) (by rw [hea]; exact hib.1)
  obtain ⟨_, r1, r2⟩ := readLine_eq hb (k := 0) (by omega) (idx := idx.drop ls.length) (by rw [heb]; exact hib.2)
  have hga : a.shape.getD ls.length 0 = n := by rw [← hn, hal]; rfl
  have hgb : b.shape.getD 0 0 = n := by rw [hbs]; rfl
  rw [hga] at l1 l2
  rw [hgb] at r1 r2
  rw [← innerLoop_eq f g (fun k => do
          let x ← sliceAt a.data (icIndex (strides a.shape) (idx.take ls.length ++ [k]))
          let y ← sliceAt b.data (icIndex (strides b.shape) (k :: idx.drop ls.length))
          return (x, y)) _ (by
    intro j p hp
    obtain ⟨h1, h2⟩ := zip_getElem?_some hp
    have hjn : j < n := by
      have := (List.getElem?_eq_some_iff.1 h1).1
      omega
    obtain ⟨hb1, e1⟩ := l2 j hjn
    obtain ⟨hb2, e2⟩ := r2 j hjn
    rw [e1, Arr.get?_of_inB hb1] at h1
    rw [e2, Arr.get?_of_inB hb2] at h2
    have hins : (idx.take ls.length).insertIdx ls.length j = idx.take ls.length ++ [j] := by
      have h3 := insertIdx_take_drop (idx.take ls.length) ls.length j (by omega)
      rw [h3, List.take_of_length_le (by omega), List.drop_of_length_le (by omega)]
    rw [hins] at h1 hb1
    rw [List.insertIdx_zero] at h2 hb2
    rw [icIndex_strides hb1.length_eq, icIndex_strides hb2.length_eq, sliceAt_eq_ok.2 h1, sliceAt_eq_ok.2 h2]
    rfl)]
  rw [List.length_zip, l1, r1, Nat.min_self]

/-- C28: unequal inner axis lengths are rejected. -/
theorem C28_inner_mismatch (uk : List α → Kind) (f g : α → α → ExceptT Fail m α) (k k' : Kind) (a b : Arr α)
    (ls rs : List Nat) (n n' : Nat) (has : a.shape = ls ++ [n]) (hbs : b.shape = n' :: rs) (h : n ≠ n') :
    inner uk f g (.arr k a) (.arr k' b) = throw .err := by
  unfold inner innerArr
  simp [has, hbs, h]

/-- C28: two scalars: `L g R`.  A scalar beside an array is extended to a vector of the length of the
adjoining axis. -/
theorem C28_inner_scalar (uk : List α → Kind) (f g : α → α → ExceptT Fail m α) (x y : α) (k : Kind) (a : Arr α)
    (ls rs : List Nat) (n n0 : Nat) (hs : a.shape = ls ++ [n]) (hs0 : a.shape = n0 :: rs) (h0 : n0 ≠ 0) :
    inner uk f g (.scalar x) (.scalar y) = (do let v ← g x y; return .scalar v) ∧
    inner uk f g (.arr k a) (.scalar y) = inner uk f g (.arr k a) (.arr (uk []) ⟨[n], List.replicate n y⟩) ∧
    inner uk f g (.scalar x) (.arr k a) = inner uk f g (.arr (uk []) ⟨[n0], List.replicate n0 x⟩) (.arr k a) := by
  refine ⟨rfl, ?_, ?_⟩
  · simp only [inner]
    rw [hs0]
    simp only [if_neg h0]
    rw [← hs0, hs]
    simp
  · simp only [inner, hs0, if_neg h0]

/-- the fold of total functions without effects -/
theorem C28_fold_pure (f g : α → α → α) (init : List (α × α)) (last : α × α) :
    ifold (m := m) (fun x y => pure (f x y)) (fun x y => pure (g x y)) (init ++ [last]) =
      pure ((init.map (fun p => g p.1 p.2)).foldr f (g last.1 last.2)) := by
  induction init with
  | nil => rfl
  | cons p l ih =>
    cases hl : l ++ [last] with
    | nil => simp at hl
    | cons r rs =>
      rw [List.cons_append, hl, ifold, ← hl, ih]
      simp

/-! ### Concrete cases -/
example : outer (m := Id) (α := Int) (fun _ => .int) (fun x y => pure (x * y)) (.arr .int ⟨[2], [2, 3]⟩) (.arr .int ⟨[3], [1, 10, 100]⟩)
    = pure (.arr .int ⟨[2, 3], [2, 20, 200, 3, 30, 300]⟩) := by rfl
/-- matrix product -/
example : inner (m := Id) (α := Int) (fun _ => .int) (fun x y => pure (x + y)) (fun x y => pure (x * y))
    (.arr .int ⟨[2, 2], [1, 2, 3, 4]⟩) (.arr .int ⟨[2, 2], [5, 6, 7, 8]⟩)
    = pure (.arr .int ⟨[2, 2], [19, 22, 43, 50]⟩) := by rfl
/-- right to left: 1-(2-3) is 2 -/
example : inner (m := Id) (α := Int) (fun _ => .int) (fun x y => pure (x - y)) (fun x y => pure (x * y))
    (.arr .int ⟨[3], [1, 2, 3]⟩) (.scalar 1) = pure (.scalar 2) := by rfl
/-- an inner axis of length 0 panics (nil value) instead of giving the identity -/
example : inner (m := Id) (α := Int) (fun _ => .int) (fun x y => pure (x + y)) (fun x y => pure (x * y))
    (.arr .int ⟨[0], []⟩) (.arr .int ⟨[0], []⟩) = throw .panic := by rfl
end Iv

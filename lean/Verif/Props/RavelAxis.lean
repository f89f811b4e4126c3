import Verif.Model.RavelAxis
import Verif.Props.Catenate
import Verif.Props.Unify
import Verif.Props.Scalar
import Verif.Lemmas.Dot
import Verif.Props.NList
import Mathlib.Data.List.Forall2
/-
C93: ravel with axis, table, catenate first, enlist.
-/
namespace Iv
variable {α A : Type}

/-- An array whose `Reshape` keeps its shape: integer arrays without elements are turned into the empty array (apl/array.go:342-344). -/
def Reshapable (k : Kind) (a : Arr α) : Prop := a.WF ∧ ¬ (k = .int ∧ a.data = [])

theorem reshapeV_same (zero : α) {k : Kind} {a : Arr α} (h : Reshapable k a) (s : List Nat) (hs : s ≠ []) (e : size s = size a.shape) :
    reshapeV zero (.arr k a) s = .ok (.arr k ⟨s, a.data⟩) := by
  have hl : a.data.length = size s := by rw [e]; exact h.1
  show reshapeArr k a.data (s.map Int.ofNat) = _
  unfold reshapeArr
  rw [if_neg h.2, if_neg (by rw [prodI_ofNat hs]; omega), prodI_ofNat hs, Int.toNat_natCast, ← hl]
  by_cases hd : a.data = []
  · rw [hd]; simp [cycFill, bind, Except.bind, pure, Except.pure, mkVal_ofNat, -List.map_map]
  · rw [cycFill_self _ hd]; simp [bind, Except.bind, pure, Except.pure, mkVal_ofNat, -List.map_map]

theorem insShape_ok (rs : List Nat) (x : Nat) (h : x ≤ rs.length) : insShape rs x = .ok (rs.insertIdx x 1) := by
  unfold insShape
  rw [forLoop_ok (g := fun i => (rs.insertIdx x 1).getD i 0)]
  · congr 1
    have : rs.length + 1 = (rs.insertIdx x 1).length := by rw [List.length_insertIdx, if_pos h]
    rw [this]
    exact range_map_getElem _ _ (fun k hk => getD_eq_getElem _ _ hk)
  · intro i hi
    have hl : (rs.insertIdx x 1).length = rs.length + 1 := by rw [List.length_insertIdx, if_pos h]
    show _ = Except.ok ((rs.insertIdx x 1).getD i 0)
    rw [getD_eq_getElem _ _ (by omega), List.getElem_insertIdx]
    by_cases h1 : i = x
    · subst h1; simp
    · rw [if_neg h1]
      by_cases h2 : x < i
      · rw [if_pos h2, sliceAt_ok (by omega)]; simp [h1, show ¬ i < x by omega]
      · rw [if_neg h2, sliceAt_ok (by omega)]; simp [show i < x by omega]

theorem mergeShape_ok (p m s : List Nat) (hm : m ≠ []) (n : Nat) :
    mergeShape (p ++ m ++ s) p.length m.length n = .ok (p ++ n :: s) := by
  have hm' : 0 < m.length := List.length_pos_iff.2 hm
  unfold mergeShape
  rw [forLoop_ok (g := fun i => (p ++ n :: s).getD i 0)]
  · congr 1
    have : 1 + (p ++ m ++ s).length - m.length = (p ++ n :: s).length := by simp; omega
    rw [this]
    exact range_map_getElem _ _ (fun k hk => getD_eq_getElem _ _ hk)
  · intro i hi
    simp only [List.length_append] at hi
    have hl : i < (p ++ n :: s).length := by simp; omega
    show _ = Except.ok ((p ++ n :: s).getD i 0)
    rw [getD_eq_getElem _ _ hl]
    by_cases h1 : i = p.length
    · subst h1; simp
    · rw [if_neg h1]
      by_cases h2 : p.length < i
      · rw [if_pos h2, sliceAt_eq_ok, List.getElem?_append_right (by simp; omega), ← List.getElem?_eq_getElem,
          List.getElem?_append_right (by omega)]
        have : i - p.length = (i - p.length - 1) + 1 := by omega
        rw [this, List.getElem?_cons_succ]
        congr 1; simp; omega
      · rw [if_neg h2, sliceAt_eq_ok, ← List.getElem?_eq_getElem, List.append_assoc, List.getElem?_append_left (by omega),
          List.getElem?_append_left (by omega)]

/-- The axis vector that names `n` consecutive axes from `k` on (zero-based). -/
def axesFrom (k n : Nat) : List Int := (List.range n).map (fun i => ((k + i : Nat) : Int))

theorem axesFrom_succ (k n : Nat) : axesFrom k (n + 1) = (k : Int) :: axesFrom (k + 1) n := by
  simp only [axesFrom, List.range_succ_eq_map, List.map_cons, List.map_map, Nat.add_zero]
  congr 1
  apply List.map_congr_left
  intro i _
  simp; omega

theorem contiguous_axesFrom (n k : Nat) : contiguous (axesFrom k n) = true := by
  induction n generalizing k with
  | zero => rfl
  | succ n ih =>
    cases n with
    | zero => rfl
    | succ n =>
      have := ih (k + 1)
      rw [axesFrom_succ, axesFrom_succ]
      rw [axesFrom_succ] at this
      simp only [contiguous, this, Bool.and_true, decide_eq_true_eq]
      omega

theorem contiguous_iff (x0 : Int) (xs : List Int) :
    contiguous (x0 :: xs) = true ↔ x0 :: xs = (List.range (xs.length + 1)).map (fun (i : Nat) => x0 + (i : Int)) := by
  induction xs generalizing x0 with
  | nil => simp [contiguous]
  | cons y ys ih =>
    simp only [contiguous, Bool.and_eq_true, decide_eq_true_eq, ih y]
    rw [List.length_cons, List.range_succ_eq_map (n := ys.length + 1)]
    simp only [List.map_cons, List.map_map, List.cons.injEq]
    constructor
    · rintro ⟨e, h⟩
      refine ⟨by simp, ?_⟩
      rw [h]
      apply List.map_congr_left
      intro i _
      simp; omega
    · rintro ⟨_, h⟩
      have hy : y = x0 + 1 := by
        rw [List.range_succ_eq_map] at h
        simp at h; exact h.1
      refine ⟨by omega, ?_⟩
      rw [h]
      apply List.map_congr_left
      intro i _
      simp; omega

theorem mulAxes_ok (p m s : List Nat) (q : Nat) : mulAxes (p ++ m ++ s) (axesFrom p.length m.length) q = .ok (q * size m) := by
  induction m generalizing p q with
  | nil => simp [axesFrom, mulAxes, size]
  | cons n m ih =>
    rw [List.length_cons, axesFrom_succ]
    have e : sliceAtI (p ++ n :: m ++ s) (p.length : Int) = .ok n := by
      unfold sliceAtI
      rw [if_neg (by omega), Int.toNat_natCast, sliceAt_eq_ok]
      simp
    simp only [mulAxes, e, bind, Except.bind]
    have := ih (p ++ [n]) (q * n)
    simp only [List.append_assoc, List.length_append, List.length_cons, List.length_nil, List.singleton_append] at this
    rw [show p ++ n :: m ++ s = p ++ n :: (m ++ s) by simp]
    rw [show p.length + (0 + 1) = p.length + 1 from rfl] at this
    rw [show p ++ n :: (m ++ s) = p ++ (n :: m ++ s) by simp, this, size, Nat.mul_assoc]

theorem mulAxes_fails (rs : List Nat) (x : List Int) (q : Nat) (h : ∃ n ∈ x, n < 0 ∨ (rs.length : Int) ≤ n) :
    mulAxes rs x q = .error .panic := by
  induction x generalizing q with
  | nil => simp at h
  | cons n x ih =>
    simp only [mulAxes, sliceAtI]
    by_cases h0 : n < 0
    · simp [h0, bind, Except.bind]
    · rw [if_neg h0]
      by_cases h1 : (rs.length : Int) ≤ n
      · have : rs[n.toNat]? = none := List.getElem?_eq_none (by omega)
        simp [sliceAt, this, bind, Except.bind]
      · rw [sliceAt_ok (by omega)]
        simp only [bind, Except.bind]
        apply ih
        obtain ⟨m, hm, h⟩ := h
        rcases List.mem_cons.1 hm with e | e
        · subst e; omega
        · exact ⟨m, e, h⟩

/-- C93.  `,[X]A` with `X` naming consecutive ascending axes of `A` (shape `p,m,s`, `X` the axes of the part `m`): those axes are
replaced by one; the element at `i`, (row-major position of `j` in `m`), `l` is the element of `A` at `i`, `j`, `l`. -/
theorem C93_merge_axes (zero : α) (uk : List α → Kind) (k : Kind) (a : Arr α) (h : Reshapable k a) (p m s : List Nat)
    (hs : a.shape = p ++ m ++ s) (hm : m ≠ []) :
    ∃ r : Arr α, ravelAxis zero uk (.ints (axesFrom p.length m.length)) (.arr k a) = .ok (.arr k r) ∧ r.WF ∧
      r.shape = p ++ size m :: s ∧
      ∀ i j l, InB p i → InB m j → InB s l → r.get? (i ++ flat m j :: l) = a.get? (i ++ j ++ l) := by
  have hsz : size (p ++ size m :: s) = size a.shape := by
    rw [hs, size_append, size_append, size_append, size, Nat.mul_assoc]
  refine ⟨⟨p ++ size m :: s, a.data⟩, ?_, by rw [Arr.WF, hsz]; exact h.1, rfl, ?_⟩
  · cases m with
    | nil => exact absurd rfl hm
    | cons n m =>
      unfold ravelAxis
      simp only [contiguous_axesFrom, Bool.true_eq_false, if_false]
      cases m with
      | nil =>
        rw [show axesFrom p.length [n].length = [(p.length : Int)] from rfl]
        simp only [size, Nat.mul_one]
        congr 2
        cases a; simp only at hs; subst hs; simp
      | cons n' m =>
        have e1 := mulAxes_ok p (n :: n' :: m) s 1
        have e2 := mergeShape_ok p (n :: n' :: m) s hm (1 * size (n :: n' :: m))
        rw [List.length_cons, List.length_cons, axesFrom_succ, axesFrom_succ] at e1 ⊢
        simp only [Val.dims, hs, e1, bind, Except.bind, Int.toNat_natCast]
        have hl : ((p.length : Int) :: ((p.length + 1 : Nat) : Int) :: axesFrom (p.length + 1 + 1) m.length).length = (n :: n' :: m).length := by
          simp [axesFrom]
        rw [hl, e2, Nat.one_mul]
        exact reshapeV_same zero h _ (by simp) hsz
  · intro i j l hi hj hl
    have e1 : InB (p ++ size m :: s) (i ++ flat m j :: l) := (InB_append hi.length_eq).2 ⟨hi, flat_lt hj, hl⟩
    have e2 : InB (p ++ m ++ s) (i ++ j ++ l) := by
      rw [InB_append (by simp [hi.length_eq, hj.length_eq]), InB_append hi.length_eq]
      exact ⟨⟨hi, hj⟩, hl⟩
    simp only [Arr.get?]
    rw [hs, if_pos e1, if_pos e2]
    congr 1
    rw [flat_append' hi.length_eq, flat_append' (by simp [hi.length_eq, hj.length_eq]), flat_append' hi.length_eq]
    simp only [flat, size, Nat.add_mul, Nat.mul_assoc, Nat.add_assoc]

/-- C93.  One axis alone changes nothing, whether `A` has that axis or not. -/
theorem C93_one_axis (zero : α) (uk : List α → Kind) (R : Val α) (x : Int) : ravelAxis zero uk (.ints [x]) R = .ok R := rfl

/-- C93.  Axes that are not consecutive and ascending are an error for every argument. -/
theorem C93_reject_order (zero : α) (uk : List α → Kind) (R : Val α) (x0 : Int) (xs : List Int)
    (h : x0 :: xs ≠ (List.range (xs.length + 1)).map (fun (i : Nat) => x0 + (i : Int))) :
    ravelAxis zero uk (.ints (x0 :: xs)) R = .error .err := by
  have : contiguous (x0 :: xs) = false := by
    rcases hb : contiguous (x0 :: xs) with _ | _
    · rfl
    · exact absurd ((contiguous_iff x0 xs).1 hb) h
  simp [ravelAxis, this]

/-- C93.  Two or more axes of which one is not an axis of `A` fail. -/
theorem C93_reject_range (zero : α) (uk : List α → Kind) (k : Kind) (a : Arr α) (x0 x1 : Int) (xs : List Int)
    (h : ∃ n ∈ x0 :: x1 :: xs, n < 0 ∨ (a.shape.length : Int) ≤ n) :
    ∃ f, ravelAxis zero uk (.ints (x0 :: x1 :: xs)) (.arr k a) = .error f := by
  unfold ravelAxis
  by_cases hc : contiguous (x0 :: x1 :: xs) = false
  · exact ⟨.err, by simp [hc]⟩
  · refine ⟨.panic, ?_⟩
    simp only [hc]
    have := mulAxes_fails a.shape (x0 :: x1 :: xs) 1 h
    simp only [Val.dims, this, bind, Except.bind]
    rfl

/-- C93.  `,[n+0.5]A` (or any number between `n` and `n+1`): a new axis of length 1 before axis `n+1`; nothing else changes. -/
theorem C93_new_axis (zero : α) (uk : List α → Kind) (k : Kind) (a : Arr α) (h : Reshapable k a) (x : Nat) (hx : x ≤ a.shape.length) :
    ∃ r : Arr α, ravelAxis zero uk (.frac ((x : Int) - 1)) (.arr k a) = .ok (.arr k r) ∧ r.WF ∧
      r.shape = a.shape.take x ++ 1 :: a.shape.drop x ∧
      ∀ i l, InB (a.shape.take x) i → InB (a.shape.drop x) l → r.get? (i ++ 0 :: l) = a.get? (i ++ l) := by
  have es : a.shape.insertIdx x 1 = a.shape.take x ++ 1 :: a.shape.drop x := by
    clear h
    generalize a.shape = l at *
    induction l generalizing x with
    | nil => simp at hx; subst hx; rfl
    | cons b l ih => cases x with
      | zero => rfl
      | succ x => simp [ih x (by simpa using hx)]
  have hsz : size (a.shape.take x ++ 1 :: a.shape.drop x) = size a.shape := by
    rw [size_append, size, Nat.one_mul, ← size_append, List.take_append_drop]
  refine ⟨⟨a.shape.take x ++ 1 :: a.shape.drop x, a.data⟩, ?_, by rw [Arr.WF, hsz]; exact h.1, rfl, ?_⟩
  · simp only [ravelAxis]
    rw [splitCat_frac (by omega) (by simp [Val.rank]; omega)]
    simp only [bind, Except.bind, Val.dims]
    rw [show ((x : Int) - 1 + 1).toNat = x by omega, insShape_ok _ _ hx, es]
    exact reshapeV_same zero h _ (by simp) hsz
  · intro i l hi hl
    have e1 : InB (a.shape.take x ++ 1 :: a.shape.drop x) (i ++ 0 :: l) := (InB_append hi.length_eq).2 ⟨hi, by omega, hl⟩
    have e2 : InB a.shape (i ++ l) := by
      have := (InB_append (s' := a.shape.drop x) (i' := l) hi.length_eq).2 ⟨hi, hl⟩
      rwa [List.take_append_drop] at this
    simp only [Arr.get?]
    rw [if_pos e1, if_pos e2, flat_append' hi.length_eq]
    congr 1
    have := flat_append' (t := a.shape.drop x) (j := l) hi.length_eq
    rw [List.take_append_drop] at this
    rw [this]
    simp [flat, size]

/-- C93.  `,[⍳0]A` appends an axis of length 1. -/
theorem C93_append_axis (zero : α) (uk : List α → Kind) (k : Kind) (a : Arr α) (h : Reshapable k a) :
    ∃ r : Arr α, ravelAxis zero uk (.ints []) (.arr k a) = .ok (.arr k r) ∧ r.WF ∧ r.shape = a.shape ++ [1] ∧
      ∀ i, InB a.shape i → r.get? (i ++ [0]) = a.get? i := by
  have hsz : size (a.shape ++ [1]) = size a.shape := by rw [size_append]; simp [size]
  refine ⟨⟨a.shape ++ [1], a.data⟩, ?_, by rw [Arr.WF, hsz]; exact h.1, rfl, ?_⟩
  · exact reshapeV_same zero h _ (by simp) hsz
  · intro i hi
    have e1 : InB (a.shape ++ [1]) (i ++ [0]) := (InB_append hi.length_eq).2 ⟨hi, by omega, trivial⟩
    simp only [Arr.get?]
    rw [if_pos e1, if_pos hi, flat_append' hi.length_eq]
    simp [flat, size]

/-- C93.  A scalar becomes a vector of one element, with a fractional axis next to rank 0 or with the empty axis; naming two axes
of it is an error.  The empty array becomes a vector of one zero: a result with an element, from an array without. -/
theorem C93_scalar (zero : α) (uk : List α → Kind) (v : α) (n : Int) (hn : -1 ≤ n) (hn' : n ≤ 0) (x y : Int) (xs : List Int) :
    ravelAxis zero uk (.frac n) (.scalar v) = .ok (.arr (uk [v]) ⟨[1], [v]⟩) ∧
    ravelAxis zero uk (.ints []) (.scalar v) = .ok (.arr (uk [v]) ⟨[1], [v]⟩) ∧
    (∃ f, ravelAxis zero uk (.ints (x :: y :: xs)) (.scalar v) = .error f) ∧
    ravelAxis zero uk (.ints []) .empty = .ok (.arr .int ⟨[1], [zero]⟩) := by
  refine ⟨?_, rfl, ?_, ?_⟩
  · simp only [ravelAxis]
    rw [splitCat_frac hn (by simp [Val.rank]; omega)]
    rfl
  · unfold ravelAxis
    by_cases hc : contiguous (x :: y :: xs) = false
    · exact ⟨.err, by simp [hc]⟩
    · exact ⟨.err, by simp [hc]⟩
  · simp [ravelAxis, contiguous, reshapeV, Val.dims, reshapeEmpty, prodI, mkVal]

/-- C93.  A fractional axis that is not next to an axis of `A` fails. -/
theorem C93_reject_new_axis (zero : α) (uk : List α → Kind) (k : Kind) (a : Arr α) (n : Int)
    (h : n < -1 ∨ (a.shape.length : Int) ≤ n) : ∃ f, ravelAxis zero uk (.frac n) (.arr k a) = .error f := by
  simp only [ravelAxis]
  by_cases hn : n < -1 ∨ n > (a.shape.length : Int)
  · refine ⟨.err, ?_⟩
    have : splitCatAxis (.scalar zero) (.arr k a) (.frac n) = .error .err := by
      show (if _ then _ else _) = _
      rw [if_pos (by simp [Val.rank]; omega)]
    simp [this, bind, Except.bind]
  · refine ⟨.panic, ?_⟩
    have e : n = (a.shape.length : Int) := by omega
    rw [splitCat_frac (by omega) (by simp [Val.rank]; omega)]
    simp only [bind, Except.bind, Val.dims]
    have : insShape a.shape (n + 1).toNat = .error .panic := by
      have hb : ∀ i, i ≤ a.shape.length →
          (if i = (n + 1).toNat then (.ok 1 : Res Nat) else sliceAt a.shape (if (n + 1).toNat < i then i - 1 else i)) = sliceAt a.shape i := by
        intro i hi
        rw [if_neg (by omega), if_neg (by omega)]
      unfold insShape
      rw [forLoop_mapM, List.range_succ, List.mapM_append]
      have hl : (List.range a.shape.length).mapM (fun i => if i = (n + 1).toNat then (.ok 1 : Res Nat) else sliceAt a.shape (if (n + 1).toNat < i then i - 1 else i)) = .ok a.shape := by
        rw [← forLoop_mapM]
        refine Eq.trans ?_ (forLoop_slice a.shape)
        rw [forLoop_mapM, forLoop_mapM]
        exact mapM_congr' (fun i hi => hb i (by have := List.mem_range.1 hi; omega))
      rw [hl]
      simp only [bind, Except.bind, List.mapM_cons, List.mapM_nil]
      rw [hb _ (Nat.le_refl _)]
      simp [sliceAt]
    rw [this]

/-- C93.  `⍪A` is the matrix with one row for each item along the first axis of `A`; row `i` has the elements of `A[i;…]` in row-major
order. -/
theorem C93_table (zero : α) (uk : List α → Kind) (k : Kind) (a : Arr α) (h : Reshapable k a) (n : Nat) (s : List Nat)
    (hs : a.shape = n :: s) :
    ∃ r : Arr α, tableOf zero uk (.arr k a) = .ok (.arr k r) ∧ r.WF ∧ r.shape = [n, size s] ∧
      ∀ i j, i < n → InB s j → r.get? [i, flat s j] = a.get? (i :: j) := by
  have hsz : size [n, size s] = size a.shape := by rw [hs]; simp [size]
  refine ⟨⟨[n, size s], a.data⟩, ?_, by rw [Arr.WF, hsz]; exact h.1, rfl, ?_⟩
  · simp only [tableOf, Val.dims, hs]
    rw [foldl_mul, Nat.one_mul]
    exact reshapeV_same zero h _ (by simp) hsz
  · intro i j hi hj
    have e1 : InB [n, size s] [i, flat s j] := ⟨hi, flat_lt hj, trivial⟩
    have e2 : InB (n :: s) (i :: j) := ⟨hi, hj⟩
    simp only [Arr.get?]
    rw [hs, if_pos e1, if_pos e2]
    simp [flat, size]

/-- C93.  `⍪` of a scalar is a 1 by 1 matrix; of the empty array it fails. -/
theorem C93_table_scalar (zero : α) (uk : List α → Kind) (v : α) :
    tableOf zero uk (.scalar v) = .ok (.arr (uk [v]) ⟨[1, 1], [v]⟩) ∧ tableOf zero uk .empty = .error .panic := ⟨rfl, rfl⟩

/-- C93.  An integer array without elements loses its shape under all of these functions: they give the empty array. -/
theorem C93_no_elements (zero : α) (uk : List α → Kind) (n m : Nat) (s : List Nat) :
    tableOf zero uk (.arr .int ⟨n :: s, []⟩) = .ok .empty ∧
    ravelAxis zero uk (.ints []) (.arr .int ⟨n :: s, []⟩) = .ok .empty ∧
    ravelAxis zero uk (.frac (-1)) (.arr .int ⟨n :: s, []⟩) = .ok .empty ∧
    ravelAxis zero uk (.ints [0, 1]) (.arr .int ⟨n :: m :: s, []⟩) = .ok .empty := by
  refine ⟨by simp [tableOf, Val.dims, reshapeV, reshapeArr], by simp [ravelAxis, contiguous, reshapeV, reshapeArr], ?_, ?_⟩
  · simp only [ravelAxis]
    rw [splitCat_frac (by omega) (by omega)]
    simp only [bind, Except.bind, Val.dims]
    rw [show ((-1 : Int) + 1).toNat = 0 from rfl, insShape_ok _ _ (by omega)]
    simp [reshapeV, reshapeArr]
  · have e1 := mulAxes_ok [] [n, m] s 1
    have e2 := mergeShape_ok [] [n, m] s (by simp) (1 * size [n, m])
    simp only [List.nil_append, List.length_nil, List.length_cons] at e1 e2
    rw [show axesFrom 0 (0 + 1 + 1) = [0, 1] from rfl] at e1
    simp only [ravelAxis, Val.dims]
    rw [if_neg (by decide)]
    have e1' : mulAxes (n :: m :: s) [0, 1] 1 = .ok (1 * size [n, m]) := e1
    have e2' : mergeShape (n :: m :: s) (0 : Int).toNat [(0 : Int), 1].length (1 * size [n, m]) = .ok (1 * size [n, m] :: s) := e2
    simp only [bind, Except.bind, e1', e2']
    simp [reshapeV, reshapeArr]

/-- C93.  `A⍪B` for arrays that agree in all axes but the first: the items of `A` along the first axis, then those of `B`. -/
theorem C93_catenate_first (uk : List α → Kind) (kl kr : Kind) (a b : Arr α) (hwa : a.WF) (hwb : b.WF) (hna : a.data ≠ [])
    (hnb : b.data ≠ []) (n m : Nat) (s : List Nat) (ha : a.shape = n :: s) (hb : b.shape = m :: s) :
    ∃ kd r, catenateFirst uk .last (.arr kl a) (.arr kr b) = .ok (.arr kd r) ∧ r.WF ∧ r.shape = (n + m) :: s ∧
      (∀ i j, i < n → InB s j → r.get? (i :: j) = a.get? (i :: j)) ∧
      ∀ i j, i < m → InB s j → r.get? ((n + i) :: j) = b.get? (i :: j) := by
  obtain ⟨kd, r, h1, h2, h3, h4⟩ := C12_catenate uk (.int ((0 : Nat) : Int)) kl kr a b 0 hwa hwb hna hnb (by simp [ha, hb]) (by simp [ha])
    (Or.inl rfl) (by
      intro j hj h0
      cases j with
      | zero => exact absurd rfl h0
      | succ j => simp [ha, hb])
  have h3' : r.shape = (n + m) :: s := by rw [h3, ha, hb]; rfl
  refine ⟨kd, r, h1, h2, h3', ?_, ?_⟩
  · intro i j hi hj
    rw [h4 _ (by rw [h3']; exact ⟨by omega, hj⟩), if_pos (by simpa [ha] using hi)]
  · intro i j hi hj
    rw [h4 _ (by rw [h3']; exact ⟨by omega, hj⟩), if_neg (by simp [ha])]
    simp [ha]

/-- C93.  A matrix over a vector, or a vector over a matrix: an argument of rank one less is one item along the first axis. -/
theorem C93_catenate_first_item (uk : List α → Kind) (kl kr : Kind) (a b : Arr α) (hwa : a.WF) (hwb : b.WF) (hna : a.data ≠ [])
    (hnb : b.data ≠ []) (n : Nat) (s : List Nat) (ha : a.shape = n :: s) (hb : b.shape = s) :
    (∃ kd r, catenateFirst uk .last (.arr kl a) (.arr kr b) = .ok (.arr kd r) ∧ r.WF ∧ r.shape = (n + 1) :: s ∧
      (∀ i j, i < n → InB s j → r.get? (i :: j) = a.get? (i :: j)) ∧ ∀ j, InB s j → r.get? (n :: j) = b.get? j) ∧
    ∃ kd r, catenateFirst uk .last (.arr kr b) (.arr kl a) = .ok (.arr kd r) ∧ r.WF ∧ r.shape = (1 + n) :: s ∧
      (∀ j, InB s j → r.get? (0 :: j) = b.get? j) ∧ ∀ i j, i < n → InB s j → r.get? ((1 + i) :: j) = a.get? (i :: j) := by
  constructor
  · obtain ⟨kd, r, h1, h2, h3, h4⟩ := C12_right_smaller uk (.int ((0 : Nat) : Int)) kl kr a b 0 hwa hwb hna hnb (by simp [ha, hb]) (by simp [ha])
      (Or.inl rfl) (by simp [ha, hb])
    have h3' : r.shape = (n + 1) :: s := by rw [h3, ha]; rfl
    refine ⟨kd, r, h1, h2, h3', ?_, ?_⟩
    · intro i j hi hj
      rw [h4 _ (by rw [h3']; exact ⟨by omega, hj⟩), if_pos (by simpa [ha] using hi)]
    · intro j hj
      rw [h4 _ (by rw [h3']; exact ⟨by omega, hj⟩), if_neg (by simp [ha])]
      simp
  · obtain ⟨kd, r, h1, h2, h3, h4⟩ := C12_left_smaller uk (.int ((0 : Nat) : Int)) kr kl b a 0 hwb hwa hnb hna (by simp [ha, hb]) (by simp [ha])
      (Or.inl rfl) (by simp [ha, hb])
    have h3' : r.shape = (1 + n) :: s := by rw [h3, ha]; rfl
    refine ⟨kd, r, h1, h2, h3', ?_, ?_⟩
    · intro j hj
      rw [h4 _ (by rw [h3']; exact ⟨by omega, hj⟩), if_pos (by simp)]
      simp
    · intro i j hi hj
      rw [h4 _ (by rw [h3']; exact ⟨by omega, hj⟩), if_neg (by simp)]
      simp

/-- C93.  A scalar over or under an array is an item with all elements equal to it. -/
theorem C93_catenate_first_scalar (uk : List α → Kind) (k : Kind) (x : α) (b : Arr α) (hwb : b.WF) (hnb : b.data ≠ [])
    (n : Nat) (s : List Nat) (hb : b.shape = n :: s) :
    ∃ kd r, catenateFirst uk .last (.scalar x) (.arr k b) = .ok (.arr kd r) ∧ r.WF ∧ r.shape = (1 + n) :: s ∧
      (∀ j, InB s j → r.get? (0 :: j) = some x) ∧ ∀ i j, i < n → InB s j → r.get? ((1 + i) :: j) = b.get? (i :: j) := by
  obtain ⟨kd, r, h1, h2, h3, h4⟩ := C12_scalar_left uk (.int ((0 : Nat) : Int)) k x b 0 hwb hnb (by simp [hb]) (Or.inl rfl)
  have h3' : r.shape = (1 + n) :: s := by rw [h3, hb]; rfl
  refine ⟨kd, r, h1, h2, h3', ?_, ?_⟩
  · intro j hj
    rw [h4 _ (by rw [h3']; exact ⟨by omega, hj⟩), if_pos (by simp)]
  · intro i j hi hj
    rw [h4 _ (by rw [h3']; exact ⟨by omega, hj⟩), if_neg (by simp)]
    simp

/-- C93.  `⍪` of two scalars is an error (APL: a vector of two). -/
theorem C93_catenate_first_scalars (uk : List α → Kind) (x y : α) :
    catenateFirst uk .last (.scalar x) (.scalar y) = .error .err := rfl

/-! Enlist. -/

/-- `p` is the path of a value that is not a list. -/
def LeafAt (v : NList A) (p : List Nat) (a : A) : Prop := v.item p = some (.leaf a)

theorem item_cons (e : NList A) (l : List (NList A)) (p : List Nat) : (NList.list (e :: l)).item (0 :: p) = e.item p := by
  simp [NList.item]

theorem item_succ (e : NList A) (l : List (NList A)) (i : Nat) (p : List Nat) :
    (NList.list (e :: l)).item ((i + 1) :: p) = (NList.list l).item (i :: p) := by
  simp [NList.item]

/-- the next path at the outermost level -/
def bumpPath : List Nat → List Nat
  | [] => []
  | i :: p => (i + 1) :: p

theorem bump_lt {p q : List Nat} (h : p < q) : bumpPath p < bumpPath q := by
  cases p with
  | nil => cases q with
    | nil => exact absurd h (List.lt_irrefl _)
    | cons j q => exact List.nil_lt_cons _ _
  | cons i p => cases q with
    | nil => exact absurd h (List.not_lt_nil _)
    | cons j q =>
      rw [List.cons_lt_cons_iff] at h
      simp only [bumpPath]
      rw [List.cons_lt_cons_iff]
      rcases h with h | ⟨h, h'⟩
      · exact Or.inl (by omega)
      · exact Or.inr ⟨by omega, h'⟩

mutual
/-- the paths of the leaves of a list, in order (used in the proof only) -/
def leafPaths : List (NList A) → List (List Nat)
  | [] => []
  | e :: l => (itemPaths e).map (fun p => 0 :: p) ++ (leafPaths l).map bumpPath
def itemPaths : NList A → List (List Nat)
  | .leaf _ => [[]]
  | .list l => leafPaths l
end

mutual
theorem leafPaths_spec : ∀ l : List (NList A), (leafPaths l).Pairwise (· < ·) ∧ (∀ p ∈ leafPaths l, p ≠ []) ∧
    (∀ p a, LeafAt (.list l) p a → p ∈ leafPaths l) ∧
    List.Forall₂ (fun p a => LeafAt (.list l) p a) (leafPaths l) (enlistItems l)
  | [] => by
    refine ⟨by simp [leafPaths], by simp [leafPaths], ?_, by simp [leafPaths, enlistItems]⟩
    intro p a h
    cases p with
    | nil => simp [LeafAt, NList.item] at h
    | cons i p => simp [LeafAt, NList.item] at h
  | e :: l => by
    obtain ⟨h1, h2, h3⟩ := itemPaths_spec e
    obtain ⟨g1, g2, g3, g4⟩ := leafPaths_spec l
    refine ⟨?_, ?_, ?_, ?_⟩
    · rw [leafPaths, List.pairwise_append]
      refine ⟨?_, ?_, ?_⟩
      · rw [List.pairwise_map]
        exact h1.imp (fun {p q} h => by rw [List.cons_lt_cons_iff]; exact Or.inr ⟨rfl, h⟩)
      · rw [List.pairwise_map]
        exact g1.imp (fun {p q} h => bump_lt h)
      · intro p hp q hq
        obtain ⟨p', _, rfl⟩ := List.mem_map.1 hp
        obtain ⟨q', hq', rfl⟩ := List.mem_map.1 hq
        cases q' with
        | nil => exact absurd rfl (g2 _ hq')
        | cons j q' => simp only [bumpPath]; rw [List.cons_lt_cons_iff]; omega
    · intro p hp
      rw [leafPaths, List.mem_append] at hp
      rcases hp with hp | hp
      · obtain ⟨p', _, rfl⟩ := List.mem_map.1 hp; simp
      · obtain ⟨q', hq', rfl⟩ := List.mem_map.1 hp
        cases q' with
        | nil => exact absurd rfl (g2 _ hq')
        | cons j q' => simp [bumpPath]
    · intro p a h
      rw [leafPaths, List.mem_append]
      cases p with
      | nil => simp [LeafAt, NList.item] at h
      | cons i p =>
        cases i with
        | zero =>
          rw [LeafAt, item_cons] at h
          exact Or.inl (List.mem_map.2 ⟨p, h2 p a h, rfl⟩)
        | succ i =>
          rw [LeafAt, item_succ] at h
          exact Or.inr (List.mem_map.2 ⟨i :: p, g3 _ a h, rfl⟩)
    · rw [leafPaths, enlistItems]
      refine List.rel_append ?_ ?_
      · rw [List.forall₂_map_left_iff]
        refine List.Forall₂.imp ?_ h3
        intro p a h
        rw [LeafAt, item_cons]; exact h
      · rw [List.forall₂_map_left_iff]
        have := (List.forall₂_and_left (p := fun p => p ≠ []) _ _).2 ⟨g2, g4⟩
        refine List.Forall₂.imp ?_ this
        rintro p a ⟨hp, h⟩
        cases p with
        | nil => exact absurd rfl hp
        | cons i p => simp only [bumpPath]; rw [LeafAt, item_succ]; exact h
theorem itemPaths_spec : ∀ v : NList A, (itemPaths v).Pairwise (· < ·) ∧ (∀ p a, LeafAt v p a → p ∈ itemPaths v) ∧
    List.Forall₂ (fun p a => LeafAt v p a) (itemPaths v) (enlistItem v)
  | .leaf b => by
    refine ⟨by simp [itemPaths], ?_, ?_⟩
    · intro p a h
      cases p with
      | nil => simp [itemPaths]
      | cons i p => simp [LeafAt, NList.item] at h
    · simp [itemPaths, enlistItem, LeafAt, NList.item]
  | .list l => by
    obtain ⟨g1, _, g3, g4⟩ := leafPaths_spec l
    exact ⟨g1, g3, g4⟩
end

/-- C93.  `∊R` is a flat list of the values inside `R` that are not lists, each exactly once, in the order of their paths
(depth first, left to right).  A value that is not a list becomes a list of one. -/
theorem C93_enlist (R : NList A) :
    ∃ (paths : List (List Nat)) (vals : List A), enlist R = .list (vals.map .leaf) ∧
      paths.Pairwise (· < ·) ∧ (∀ p, p ∈ paths ↔ ∃ a, LeafAt R p a) ∧ List.Forall₂ (fun p a => LeafAt R p a) paths vals := by
  obtain ⟨h1, h2, h3⟩ := itemPaths_spec R
  refine ⟨itemPaths R, enlistItem R, ?_, h1, ?_, h3⟩
  · cases R <;> simp [enlist, enlistItem]
  · intro p
    constructor
    · intro hp
      obtain ⟨i, hi⟩ := List.getElem?_of_mem hp
      have hl := h3.length_eq
      have hlt : i < (itemPaths R).length := by
        rw [List.getElem?_eq_some_iff] at hi; exact hi.1
      refine ⟨(enlistItem R)[i], ?_⟩
      have := h3.get hlt (by omega)
      simp only [List.get_eq_getElem] at this
      rw [List.getElem?_eq_some_iff] at hi
      rw [hi.2] at this
      exact this
    · rintro ⟨a, ha⟩
      exact h2 p a ha

/-- C93.  Enlisting twice is enlisting once. -/
theorem C93_enlist_idempotent (R : NList A) : enlist (enlist R) = enlist R := by
  have : ∀ l : List A, enlistItems (l.map .leaf) = l := by
    intro l
    induction l with
    | nil => rfl
    | cons a l ih => simp [enlistItems, enlistItem, ih]
  cases R with
  | leaf a => rfl
  | list l => simp [enlist, this]

/-! Concrete cases. -/

example : ravelAxis (0 : Int) (fun _ => .int) (.ints [0, 1]) (.arr .int ⟨[2, 2, 2], [1, 2, 3, 4, 5, 6, 7, 8]⟩) =
    .ok (.arr .int ⟨[4, 2], [1, 2, 3, 4, 5, 6, 7, 8]⟩) := by decide
example : Reshapable .int (⟨[2, 2], [1, 2, 3, 4]⟩ : Arr Int) := by
  refine ⟨by decide, ?_⟩
  rintro ⟨_, h⟩
  cases h
example : Reshapable .str (⟨[0, 2], []⟩ : Arr String) := ⟨by decide, fun h => by cases h.1⟩
example : ravelAxis (0 : Int) (fun _ => .int) (.frac 0) (.arr .int ⟨[2, 2], [1, 2, 3, 4]⟩) =
    .ok (.arr .int ⟨[2, 1, 2], [1, 2, 3, 4]⟩) := by decide
example : tableOf (0 : Int) (fun _ => .int) (.arr .int ⟨[2, 2, 2], [1, 2, 3, 4, 5, 6, 7, 8]⟩) =
    .ok (.arr .int ⟨[2, 4], [1, 2, 3, 4, 5, 6, 7, 8]⟩) := by decide
example : catenateFirst (fun _ => .int) .last (.arr .int ⟨[2], [10, 20]⟩) (.arr .int (⟨[2, 2], [1, 2, 3, 4]⟩ : Arr Int)) =
    .ok (.arr .int ⟨[3, 2], [10, 20, 1, 2, 3, 4]⟩) := by decide
example : enlist (.list [.leaf 1, .list [.leaf 2, .list [.leaf 3], .list []], .leaf (4 : Nat)]) =
    .list [.leaf 1, .leaf 2, .leaf 3, .leaf 4] := rfl

end Iv

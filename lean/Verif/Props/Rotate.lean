import Verif.Lemmas.Rotate
/-
C09: rotate.
-/
namespace Iv

/-- C09 (arrays of rank ≥ 2).  For counts `L` with `A`'s shape without axis `k`, rotation succeeds, keeps the shape, and the element at
index vector `i` is `A`'s element at `i` with component `k` replaced by `(i_k + n) mod len`, where `n`
is the count at `i` without component `k` (`%` is the mathematical remainder, in `[0, len)`). -/
theorem C09_rotate {α} (L : Arr Int) (a : Arr α) (k : Nat) (hw : a.WF) (hLw : L.WF)
    (hr : 2 ≤ a.shape.length) (hk : k < a.shape.length) (hL : L.shape = a.shape.eraseIdx k) :
    ∃ r, rotateArr L a (k : Int) = .ok r ∧ r.WF ∧ r.shape = a.shape ∧
      ∀ idx, InB a.shape idx → ∃ n, L.get? (idx.eraseIdx k) = some n ∧
        r.get? idx = a.get? (idx.set k ((((idx.getD k 0 : Nat) : Int) + n) % ((a.shape.getD k 0 : Nat) : Int)).toNat) ∧
        InB a.shape (idx.set k ((((idx.getD k 0 : Nat) : Int) + n) % ((a.shape.getD k 0 : Nat) : Int)).toNat) := by
  have hne : a.shape ≠ [] := by intro h; rw [h] at hk; simp at hk
  have hLl : L.shape.length = a.shape.length - 1 := by rw [hL, List.length_eraseIdx, if_pos hk]
  have hLne : L.shape ≠ [] := by intro h; rw [h] at hLl; simp at hLl; omega
  have hext : extendRot L a.shape.length = .ok L := by
    unfold extendRot
    split
    · rename_i n hn
      rw [if_neg]; rw [hn] at hLl; simp at hLl; omega
    · rfl
  have hget : ∀ idx, InB a.shape idx → ∃ n, L.get? (idx.eraseIdx k) = some n := by
    intro idx h
    have := Arr.get?_isSome hLw (i := idx.eraseIdx k) (by rw [hL]; exact InB_eraseIdx h k)
    exact Option.isSome_iff_exists.1 this
  let cnt : List Nat → Int := fun idx => (L.get? (idx.eraseIdx k)).getD 0
  let f : List Nat → List Nat := fun idx =>
    idx.set k (rot (idx.getD k 0) (cnt idx) (a.shape.getD k 0)).toNat
  have hf : ∀ idx, InB a.shape idx → InB a.shape (f idx) := by
    intro idx h
    apply InB_set h
    have := h.getD_lt hk
    have := rot_range (idx.getD k 0) (cnt idx) (a.shape.getD k 0) (by omega)
    omega
  obtain ⟨r, h1, h2, h3, h4⟩ := odo_gather hw (s := a.shape) (f := f)
    (body := fun _ dst => do
        let n ← sliceAt L.data (icIndex (strides L.shape) (dst.take k ++ dst.drop (k + 1)))
        let s := rot (dst.getD k 0) n (a.shape.getD k 0)
        if s < 0 then .error .panic
        else sliceAt a.data (icIndex (strides a.shape) (dst.set k s.toNat))) (by
      intro idx h
      obtain ⟨n, hn⟩ := hget idx h
      have hcnt : cnt idx = n := by simp [cnt, hn]
      have hin : InB L.shape (idx.eraseIdx k) := by rw [hL]; exact InB_eraseIdx h k
      have hn' := hn
      rw [Arr.get?_of_inB hin] at hn'
      rw [take_drop_eraseIdx, icIndex_strides hin.length_eq, sliceAt_eq_ok.2 hn']
      simp only [bind, Except.bind]
      have := h.getD_lt hk
      have := rot_range (idx.getD k 0) n (a.shape.getD k 0) (by omega)
      rw [if_neg (by omega)]
      simp only [f, hcnt]) hf
  refine ⟨r, ?_, h3, h2, ?_⟩
  · rw [rotateArr_eq L a _ (by omega)]
    have hna : normAxis a.shape.length (k : Int) = .ok k := by
      unfold normAxis
      rw [if_neg (by omega), if_neg (by omega)]; simp
    simp only [hna, bind, Except.bind, hext]
    rw [if_neg (by omega), if_neg (by
      simp only [List.all_eq_true, List.mem_range, Bool.not_eq_true, beq_iff_eq, Classical.not_not]
      intro i hi
      rw [hL, getD_eraseIdx])]
    simp only [newIdxConverter_ok hne, newIdxConverter_ok hLne, prod_eq_size hne]
    have h1' := h1
    simp only [bind, Except.bind] at h1'
    rw [h1']
    simp only [pure, Except.pure, ← h2]
  · intro idx hidx
    obtain ⟨n, hn⟩ := hget idx hidx
    have hcnt : cnt idx = n := by simp [cnt, hn]
    have hm := hidx.getD_lt hk
    have e : f idx = idx.set k ((((idx.getD k 0 : Nat) : Int) + n) % ((a.shape.getD k 0 : Nat) : Int)).toNat := by
      simp only [f, hcnt]
      rw [rot_eq _ _ _ (by omega)]
    exact ⟨n, hn, by rw [h4 idx hidx, e], by rw [← e]; exact hf idx hidx⟩

/-- C09 (vectors).  `n⌽V` for every integer `n`. -/
theorem C09_rotate_vector {α} (v : List α) (n : Int) (axis : Int) :
    ∃ r, rotateArr ⟨[1], [n]⟩ ⟨[v.length], v⟩ axis = .ok r ∧ r.shape = [v.length] ∧ r.WF ∧
      ∀ i, i < v.length → r.data[i]? = v[(((i : Int) + n) % (v.length : Int)).toNat]? := by
  obtain ⟨d, h1, h2, h3⟩ := forLoop_ex (body := fun i => sliceAtI v (rot i n v.length)) v.length (by
    intro k hk
    have := rot_range k n v.length (by omega)
    refine ⟨v[(rot k n v.length).toNat], ?_⟩
    unfold sliceAtI
    rw [if_neg (by omega), sliceAt_ok (by omega)])
  refine ⟨⟨[v.length], d⟩, ?_, rfl, by simp [Arr.WF, size, h2], ?_⟩
  · simp [rotateArr, h1, sliceAt, bind, Except.bind, pure, Except.pure]
  · intro i hi
    obtain ⟨x, hx, hd⟩ := h3 i hi
    have := rot_range i n v.length (by omega)
    unfold sliceAtI at hx
    rw [if_neg (by omega)] at hx
    rw [hd, ← rot_eq i n v.length (by omega), sliceAt_eq_ok.1 hx]

/-- C09: `m⌽n⌽V` is `(m+n)⌽V`. -/
theorem C09_compose_vector {α} (v : List α) (m n : Int) (axis : Int) :
    (rotateArr ⟨[1], [n]⟩ ⟨[v.length], v⟩ axis >>= fun r => rotateArr ⟨[1], [m]⟩ r axis) =
      rotateArr ⟨[1], [m + n]⟩ ⟨[v.length], v⟩ axis := by
  obtain ⟨r, h1, h2, h3, h4⟩ := C09_rotate_vector v n axis
  have hr : r = ⟨[r.data.length], r.data⟩ := by
    cases r with
    | mk s d => simp only [Arr.WF] at h3; simp only at h2; subst h2; simp [size] at h3; simp [h3]
  have hrl : r.data.length = v.length := by simpa [Arr.WF, h2, size] using h3
  obtain ⟨q, g1, g2, g3, g4⟩ := C09_rotate_vector r.data m axis
  obtain ⟨p, f1, f2, f3, f4⟩ := C09_rotate_vector v (m + n) axis
  rw [h1, f1]
  simp only [bind, Except.bind]
  rw [hr, g1]
  congr 1
  rw [hrl] at g2 g4
  have hpl : p.data.length = v.length := by simpa [Arr.WF, f2, size] using f3
  have := vec_eq g3 g2 hpl (by
    intro i hi
    rw [g4 i hi, f4 i hi]
    have a1 := Int.emod_nonneg ((i : Int) + m) (b := (v.length : Int)) (by omega)
    have a2 := Int.emod_lt_of_pos ((i : Int) + m) (b := (v.length : Int)) (by omega)
    rw [h4 _ (by omega)]
    congr 2
    rw [Int.toNat_of_nonneg a1, Int.emod_add_emod]
    congr 1; omega)
  rw [this]
  cases p with
  | mk s d => simp only at f2; rw [f2]

/-- C09: rotating back gives the vector. -/
theorem C09_inverse_vector {α} (v : List α) (n : Int) (axis : Int) :
    (rotateArr ⟨[1], [n]⟩ ⟨[v.length], v⟩ axis >>= fun r => rotateArr ⟨[1], [-n]⟩ r axis) =
      .ok ⟨[v.length], v⟩ := by
  rw [C09_compose_vector]
  obtain ⟨p, f1, f2, f3, f4⟩ := C09_rotate_vector v (-n + n) axis
  rw [f1]
  congr 1
  refine vec_eq f3 f2 rfl ?_
  intro i hi
  rw [f4 i hi]
  congr 1
  have : (i : Int) + (-n + n) = i := by omega
  rw [this, Int.emod_eq_of_lt (by omega) (by omega)]
  simp

/-- C09: rotating by `L` and then by `M` (same shape of counts) is rotating by their sum,
for every array of rank ≥ 2 and axis. -/
theorem C09_compose {α} (L M S : Arr Int) (a : Arr α) (k : Nat) (hw : a.WF)
    (hLw : L.WF) (hMw : M.WF) (hSw : S.WF)
    (hr : 2 ≤ a.shape.length) (hk : k < a.shape.length)
    (hL : L.shape = a.shape.eraseIdx k) (hM : M.shape = a.shape.eraseIdx k)
    (hS : S.shape = a.shape.eraseIdx k)
    (hsum : ∀ i l m, L.get? i = some l → M.get? i = some m → S.get? i = some (l + m)) :
    (rotateArr L a k >>= fun r => rotateArr M r k) = rotateArr S a k := by
  obtain ⟨r, h1, h2, h3, h4⟩ := C09_rotate L a k hw hLw hr hk hL
  obtain ⟨q, g1, g2, g3, g4⟩ := C09_rotate M r k h2 hMw (by rw [h3]; exact hr) (by rw [h3]; exact hk) (by rw [h3]; exact hM)
  obtain ⟨p, f1, f2, f3, f4⟩ := C09_rotate S a k hw hSw hr hk hS
  rw [h1, f1]
  simp only [bind, Except.bind]
  rw [g1]
  congr 1
  apply Arr.ext_get g2 f2 (by rw [g3, f3, h3])
  intro i hi
  rw [g3, h3] at hi
  obtain ⟨m, hm, hm2, hm3⟩ := g4 i (by rw [h3]; exact hi)
  rw [h3] at hm2 hm3
  obtain ⟨l, hl, hl2, _⟩ := h4 _ hm3
  rw [eraseIdx_set_self] at hl
  obtain ⟨s, hs, hs2, _⟩ := f4 i hi
  rw [hsum _ _ _ hl hm] at hs
  cases hs
  rw [hm2, hl2, hs2]
  have hlen : k < i.length := by rw [hi.length_eq]; exact hk
  have hb := hi.getD_lt hk
  rw [getD_set, if_pos ⟨rfl, hlen⟩, List.set_set]
  congr 2
  have a1 := Int.emod_nonneg ((i.getD k 0 : Int) + m) (b := (a.shape.getD k 0 : Int)) (by omega)
  rw [Int.toNat_of_nonneg a1, Int.emod_add_emod]
  congr 2
  omega

/-- C09: counts that do not have `A`'s shape without the axis are rejected
(rank 2 array with a vector of counts, or counts of rank ≥ 2). -/
theorem C09_reject {α} (L : Arr Int) (a : Arr α) (k : Nat) (hr : 2 ≤ a.shape.length)
    (hk : k < a.shape.length) (hv : L.shape.length ≠ 1 ∨ a.shape.length = 2)
    (hL : L.shape ≠ a.shape.eraseIdx k) : rotateArr L a (k : Int) = .error .err := by
  rw [rotateArr_eq L a _ (by omega)]
  have hna : normAxis a.shape.length (k : Int) = .ok k := by
    unfold normAxis
    rw [if_neg (by omega), if_neg (by omega)]; simp
  have hext : extendRot L a.shape.length = .ok L := by
    unfold extendRot
    split
    · rename_i n hn
      rw [hn] at hv; simp at hv
      rw [if_neg (by omega)]
    · rfl
  simp only [hna, bind, Except.bind, hext]
  split
  · rfl
  · rename_i hl
    rw [if_pos]
    intro hall
    apply hL
    apply eraseIdx_eq_of hk (by omega)
    simp only [List.all_eq_true, List.mem_range, beq_iff_eq] at hall
    exact hall

/-- "A single count is repeated to conform" (the documented behaviour, and APL's) is FALSE: rotating
a 2×3 matrix by the scalar 1 is rejected. -/
theorem C09_single_count_rejected :
    rotateArr ⟨[1], [1]⟩ (⟨[2, 3], [1, 2, 3, 4, 5, 6]⟩ : Arr Nat) 1 = .error .err := by decide

example : rotateArr ⟨[2], [1, -1]⟩ (⟨[2, 3], [1, 2, 3, 4, 5, 6]⟩ : Arr Nat) 1 =
    .ok ⟨[2, 3], [2, 3, 1, 6, 4, 5]⟩ ∧ (⟨[2], [1, -1]⟩ : Arr Int).WF := by decide

end Iv

import Verif.Lemmas.Catenate
/-
C12, C13: catenate and laminate.
-/
namespace Iv

/-- The zero-based axis `k` is the one that the axis argument `ax` denotes for a right argument of
rank `n`: given explicitly, or the last axis when there is none. -/
def AxisIs (ax : CatAxis) (n k : Nat) : Prop := ax = .int (k : Int) ∨ (ax = .last ∧ k + 1 = n)

theorem splitCat_int {α} {L R : Val α} {n : Int} : splitCatAxis L R (.int n) =
    if n < 0 ∨ n ≥ ((max L.rank R.rank : Nat) : Int) then .error .err else .ok (n, false) := rfl

theorem splitCat_frac {α} {L R : Val α} {n : Int} (h : -1 ≤ n) (h2 : n ≤ ((max L.rank R.rank : Nat) : Int)) :
    splitCatAxis L R (.frac n) = .ok (n, true) := by
  show (if n < -1 ∨ n > ((max L.rank R.rank : Nat) : Int) then (.error .err : Res (Int × Bool)) else .ok (n, true)) = _
  rw [if_neg (by omega)]

theorem rank_arr {α} {k : Kind} {a : Arr α} : (Val.arr k a).rank = a.shape.length := rfl

theorem splitCat_arr {α} {ax : CatAxis} {k : Nat} {L : Val α} {kr : Kind} {b : Arr α}
    (hax : AxisIs ax b.shape.length k) (hk : k < max L.rank b.shape.length) :
    splitCatAxis L (.arr kr b) ax = .ok ((k : Int), false) := by
  rcases hax with h | ⟨h, h2⟩
  · subst h; rw [splitCat_int, rank_arr]
    rw [if_neg (by omega)]
  · subst h; simp only [splitCatAxis, Val.rank]
    congr 2; omega

theorem catAlign_same {α} (x : Nat) (kl kr : Kind) (a b : Arr α) (h : a.shape.length = b.shape.length) :
    catAlign x kl kr a b = .ok (a, b) := by
  unfold catAlign; simp only
  rw [if_neg (by omega)]

theorem noElems_arr {α} {k : Kind} {a : Arr α} (h : a.data ≠ []) : (Val.arr k a).noElems = false := by
  simp [Val.noElems, h]

/-- C12.  Two non-empty arrays of equal rank whose axes agree except for axis `k`: the result adds up
the lengths along `k`; positions below the left length are the left elements, the rest the right ones. -/
theorem C12_catenate {α} (uk : List α → Kind) (ax : CatAxis) (kl kr : Kind) (a b : Arr α) (k : Nat)
    (hwa : a.WF) (hwb : b.WF) (hna : a.data ≠ []) (hnb : b.data ≠ [])
    (hl : a.shape.length = b.shape.length) (hk : k < a.shape.length)
    (hax : AxisIs ax b.shape.length k)
    (hag : ∀ j, j < a.shape.length → j ≠ k → a.shape.getD j 0 = b.shape.getD j 0) :
    ∃ kd r, catenate uk ax (.arr kl a) (.arr kr b) = .ok (.arr kd r) ∧ r.WF ∧
      r.shape = a.shape.set k (a.shape.getD k 0 + b.shape.getD k 0) ∧
      ∀ idx, InB r.shape idx →
        r.get? idx = if idx.getD k 0 < a.shape.getD k 0 then a.get? idx
          else b.get? (idx.set k (idx.getD k 0 - a.shape.getD k 0)) := by
  obtain ⟨r, h1, h2, h3, h4⟩ := catCore_spec k a b hwa hwb hl hk hag
  refine ⟨uk r.data, r, ?_, h2, h3, h4⟩
  unfold catenate
  rw [splitCat_arr hax (by omega)]
  simp only [bind, Except.bind, noElems_arr hna, noElems_arr hnb, Bool.false_eq_true, if_false,
    Int.toNat_natCast, catAlign_same k kl kr a b hl, h1, pure, Except.pure]

/-- C12: disagreement in another axis is rejected. -/
theorem C12_reject_mismatch {α} (uk : List α → Kind) (ax : CatAxis) (kl kr : Kind) (a b : Arr α) (k : Nat)
    (hna : a.data ≠ []) (hnb : b.data ≠ [])
    (hl : a.shape.length = b.shape.length) (hk : k < a.shape.length)
    (hax : AxisIs ax b.shape.length k)
    (hdis : ∃ j, j < a.shape.length ∧ j ≠ k ∧ a.shape.getD j 0 ≠ b.shape.getD j 0) :
    catenate uk ax (.arr kl a) (.arr kr b) = .error .err := by
  have hc : catCore k a b = .error .err := by
    unfold catCore
    rw [catShape_err k b.shape a.shape 0 (by omega) (by simpa using hdis)]
    rfl
  unfold catenate
  rw [splitCat_arr hax (by omega)]
  simp only [bind, Except.bind, noElems_arr hna, noElems_arr hnb, Bool.false_eq_true, if_false,
    Int.toNat_natCast, catAlign_same k kl kr a b hl, hc]

/-- C12: an axis outside the larger rank is rejected. -/
theorem C12_reject_axis {α} (uk : List α → Kind) (n : Int) (L R : Val α)
    (h : n < 0 ∨ ((max L.rank R.rank : Nat) : Int) ≤ n) :
    catenate uk (.int n) L R = .error .err := by
  unfold catenate
  rw [splitCat_int, if_pos (by omega)]
  rfl

/-- C12: ranks that differ by more than one are rejected (a left rank larger by exactly two fails
inside the loop, with a run-time panic unless an axis disagrees first). -/
theorem C12_reject_rank {α} (uk : List α → Kind) (ax : CatAxis) (kl kr : Kind) (a b : Arr α) (k : Nat)
    (hna : a.data ≠ []) (hnb : b.data ≠ [])
    (hr : a.shape.length + 1 < b.shape.length ∨ b.shape.length + 1 < a.shape.length)
    (hax : AxisIs ax b.shape.length k) (hk : k < max a.shape.length b.shape.length) :
    ∃ e, catenate uk ax (.arr kl a) (.arr kr b) = .error e := by
  unfold catenate
  rw [splitCat_arr hax (by simpa [Val.rank] using hk)]
  simp only [bind, Except.bind, noElems_arr hna, noElems_arr hnb, Bool.false_eq_true, if_false,
    Int.toNat_natCast]
  by_cases hd : (a.shape.length : Int) - b.shape.length = 2
  · have : catAlign k kl kr a b = .ok (a, b) := by
      unfold catAlign; simp only
      rw [if_pos (by omega), if_neg (by omega), if_neg (by omega), if_neg (by omega)]
    rw [this]
    obtain ⟨e, he⟩ := catShape_long k b.shape a.shape 0 (by omega) (by omega)
    refine ⟨e, ?_⟩
    simp only
    unfold catCore
    rw [he]
    rfl
  · have : catAlign k kl kr a b = .error .err := by
      unfold catAlign; simp only
      rw [if_pos (by omega), if_pos (by omega)]
    rw [this]
    exact ⟨_, rfl⟩

/-- C12: a left array of one rank less is joined as if it had axis `k` with length 1. -/
theorem C12_left_smaller {α} (uk : List α → Kind) (ax : CatAxis) (kl kr : Kind) (a b : Arr α) (k : Nat)
    (hwa : a.WF) (hwb : b.WF) (hna : a.data ≠ []) (hnb : b.data ≠ [])
    (hl : a.shape.length + 1 = b.shape.length) (hk : k < b.shape.length)
    (hax : AxisIs ax b.shape.length k) (hag : a.shape = b.shape.eraseIdx k) :
    ∃ kd r, catenate uk ax (.arr kl a) (.arr kr b) = .ok (.arr kd r) ∧ r.WF ∧
      r.shape = b.shape.set k (1 + b.shape.getD k 0) ∧
      ∀ idx, InB r.shape idx →
        r.get? idx = if idx.getD k 0 = 0 then a.get? (idx.eraseIdx k)
          else b.get? (idx.set k (idx.getD k 0 - 1)) := by
  obtain ⟨a', h1, h2, h3, h4, h5, h6⟩ := reshapeTo_insert1 kl a hwa hna k (by omega)
  have hsh : a'.shape = b.shape.set k 1 := by
    rw [h4, hag]
    apply getD_ext
    · rw [List.length_insertIdx, if_pos (by rw [List.length_eraseIdx, if_pos hk]; omega),
        List.length_eraseIdx, if_pos hk]; simp; omega
    · intro j hj
      rw [getD_insertIdx _ _ _ _ (by rw [List.length_eraseIdx, if_pos hk]; omega), getD_set]
      by_cases e1 : j < k
      · rw [if_pos e1, if_neg (by omega), getD_eraseIdx, if_neg (by omega)]
      · rw [if_neg e1]
        by_cases e2 : j = k
        · rw [if_pos e2, if_pos ⟨e2.symm, hk⟩]
        · rw [if_neg e2, if_neg (by omega), getD_eraseIdx, if_pos (by omega)]
          congr 1; omega
  have hx1 : a'.shape.getD k 0 = 1 := by rw [hsh, getD_set, if_pos ⟨rfl, hk⟩]
  obtain ⟨r, g1, g2, g3, g4⟩ := catCore_spec k a' b h3 hwb (by rw [hsh]; simp) (by rw [hsh]; simpa using hk) (by
    intro j _ hj; rw [hsh, getD_set, if_neg (by omega)])
  refine ⟨uk r.data, r, ?_, g2, ?_, ?_⟩
  · unfold catenate
    rw [splitCat_arr hax (by simp only [Val.rank]; omega)]
    have : catAlign k kl kr a b = .ok (a', b) := by
      unfold catAlign; simp only
      rw [if_pos (by omega), if_neg (by omega), if_pos (by omega), h1]
      simp only [bind, Except.bind, h2, pure, Except.pure]
    simp only [bind, Except.bind, noElems_arr hna, noElems_arr hnb, Bool.false_eq_true, if_false,
      Int.toNat_natCast, this, g1, pure, Except.pure]
  · rw [g3, hx1, hsh, List.set_set]
  · intro idx hidx
    rw [g4 idx hidx, hx1]
    by_cases hz : idx.getD k 0 = 0
    · rw [if_pos (by omega), if_pos hz]
      refine (h6 idx ?_).2
      rw [InB_iff] at hidx ⊢
      rw [g3] at hidx
      simp only [List.length_set] at hidx
      refine ⟨hidx.1, ?_⟩
      intro j hj
      have := hidx.2 j hj
      rw [getD_set] at this
      by_cases e : j = k
      · subst e; omega
      · rw [if_neg (by omega)] at this; exact this
    · rw [if_neg (by omega), if_neg hz]

/-- C12: a right array of one rank less is joined as if it had axis `k` with length 1.
(Without an axis argument the code takes the last axis of the *right* argument.) -/
theorem C12_right_smaller {α} (uk : List α → Kind) (ax : CatAxis) (kl kr : Kind) (a b : Arr α) (k : Nat)
    (hwa : a.WF) (hwb : b.WF) (hna : a.data ≠ []) (hnb : b.data ≠ [])
    (hl : b.shape.length + 1 = a.shape.length) (hk : k < a.shape.length)
    (hax : AxisIs ax b.shape.length k) (hag : b.shape = a.shape.eraseIdx k) :
    ∃ kd r, catenate uk ax (.arr kl a) (.arr kr b) = .ok (.arr kd r) ∧ r.WF ∧
      r.shape = a.shape.set k (a.shape.getD k 0 + 1) ∧
      ∀ idx, InB r.shape idx →
        r.get? idx = if idx.getD k 0 < a.shape.getD k 0 then a.get? idx
          else b.get? (idx.eraseIdx k) := by
  obtain ⟨b', h1, h2, h3, h4, h5, h6⟩ := reshapeTo_insert1 kr b hwb hnb k (by omega)
  have hsh : b'.shape = a.shape.set k 1 := by
    rw [h4, hag]
    apply getD_ext
    · rw [List.length_insertIdx, if_pos (by rw [List.length_eraseIdx, if_pos hk]; omega),
        List.length_eraseIdx, if_pos hk]; simp; omega
    · intro j hj
      rw [getD_insertIdx _ _ _ _ (by rw [List.length_eraseIdx, if_pos hk]; omega), getD_set]
      by_cases e1 : j < k
      · rw [if_pos e1, if_neg (by omega), getD_eraseIdx, if_neg (by omega)]
      · rw [if_neg e1]
        by_cases e2 : j = k
        · rw [if_pos e2, if_pos ⟨e2.symm, hk⟩]
        · rw [if_neg e2, if_neg (by omega), getD_eraseIdx, if_pos (by omega)]
          congr 1; omega
  have hx1 : b'.shape.getD k 0 = 1 := by rw [hsh, getD_set, if_pos ⟨rfl, hk⟩]
  obtain ⟨r, g1, g2, g3, g4⟩ := catCore_spec k a b' hwa h3 (by rw [hsh]; simp) hk (by
    intro j _ hj; rw [hsh, getD_set, if_neg (by omega)])
  refine ⟨uk r.data, r, ?_, g2, ?_, ?_⟩
  · unfold catenate
    rw [splitCat_arr hax (by simp only [Val.rank]; omega)]
    have : catAlign k kl kr a b = .ok (a, b') := by
      unfold catAlign; simp only
      rw [if_pos (by omega), if_neg (by omega), if_neg (by omega), if_pos (by omega), h1]
      simp only [bind, Except.bind, h2, pure, Except.pure]
    simp only [bind, Except.bind, noElems_arr hna, noElems_arr hnb, Bool.false_eq_true, if_false,
      Int.toNat_natCast, this, g1, pure, Except.pure]
  · rw [g3, hx1]
  · intro idx hidx
    rw [g4 idx hidx]
    by_cases hz : idx.getD k 0 < a.shape.getD k 0
    · rw [if_pos hz, if_pos hz]
    · rw [if_neg hz, if_neg hz]
      have hidx' := InB_iff.1 hidx
      rw [g3] at hidx'
      simp only [List.length_set] at hidx'
      have hkk := hidx'.2 k hk
      rw [getD_set, if_pos ⟨rfl, hk⟩, hx1] at hkk
      have : idx.getD k 0 - a.shape.getD k 0 = 0 := by omega
      rw [this]
      have hin : InB b'.shape (idx.set k 0) := by
        rw [InB_iff, hsh]
        simp only [List.length_set]
        refine ⟨hidx'.1, ?_⟩
        intro j hj
        rw [getD_set, getD_set]
        by_cases e : j = k
        · subst e; rw [if_pos ⟨rfl, by omega⟩, if_pos ⟨rfl, hk⟩]; omega
        · rw [if_neg (by omega), if_neg (by omega)]
          have := hidx'.2 j hj
          rw [getD_set, if_neg (by omega)] at this; exact this
      rw [(h6 _ hin).2, eraseIdx_set_self]

/-- C12: a side without elements is dropped: the other side is returned unchanged (even a scalar
stays a scalar, and the shapes need not agree). -/
theorem C12_empty {α} (uk : List α → Kind) (V : Val α) :
    catenate uk .last .empty V = .ok V ∧ (V.noElems = false → catenate uk .last V .empty = .ok V) := by
  constructor
  · unfold catenate splitCatAxis
    cases V <;> simp [bind, Except.bind, Val.noElems]
  · intro h
    unfold catenate splitCatAxis
    simp only [bind, Except.bind]
    rw [h]
    simp [Val.noElems]

/-- C12: catenating two vectors concatenates the element sequences (any lengths, including zero). -/
theorem C12_vector {α} (uk : List α → Kind) (kl kr : Kind) (v w : List α) :
    ∃ kd, catenate uk .last (.arr kl ⟨[v.length], v⟩) (.arr kr ⟨[w.length], w⟩) =
      .ok (.arr kd ⟨[(v ++ w).length], v ++ w⟩) := by
  by_cases hv : v = []
  · subst hv
    refine ⟨kr, ?_⟩
    simp [catenate, splitCatAxis, bind, Except.bind, Val.noElems]
  by_cases hw : w = []
  · subst hw
    refine ⟨kl, ?_⟩
    simp [catenate, splitCatAxis, bind, Except.bind, Val.noElems, hv]
  obtain ⟨kd, r, h1, h2, h3, h4⟩ := C12_catenate uk .last kl kr ⟨[v.length], v⟩ ⟨[w.length], w⟩ 0
    (by simp [Arr.WF, size]) (by simp [Arr.WF, size]) hv hw rfl (by simp) (Or.inr ⟨rfl, rfl⟩) (by
      intro j hj hj0; simp at hj; omega)
  refine ⟨kd, ?_⟩
  rw [h1]
  have h3' : r.shape = [(v ++ w).length] := by rw [h3]; simp
  rw [vec_eq h2 h3' rfl ?_]
  intro i hi
  have h := h4 [i] (by rw [h3']; simp [InB]; simpa using hi)
  rw [get?_vec_lt h3' hi] at h
  simp only [List.getD_cons_zero, List.set_cons_zero] at h
  rw [h]
  by_cases hc : i < v.length
  · rw [if_pos hc, get?_vec_lt rfl hc, List.getElem?_append_left hc]
  · have hi' : i < v.length + w.length := by simpa using hi
    rw [if_neg hc, get?_vec_lt rfl (by omega), List.getElem?_append_right (by omega)]

/-- C12: catenation of vectors is associative. -/
theorem C12_assoc {α} (uk : List α → Kind) (k1 k2 k3 : Kind) (u v w : List α) :
    ∃ r kd kd', 
      ((catenate uk .last (.arr k1 ⟨[u.length], u⟩) (.arr k2 ⟨[v.length], v⟩)).bind
        (fun x => catenate uk .last x (.arr k3 ⟨[w.length], w⟩))) = .ok (.arr kd r) ∧
      ((catenate uk .last (.arr k2 ⟨[v.length], v⟩) (.arr k3 ⟨[w.length], w⟩)).bind
        (fun x => catenate uk .last (.arr k1 ⟨[u.length], u⟩) x)) = .ok (.arr kd' r) ∧
      r = ⟨[(u ++ v ++ w).length], u ++ v ++ w⟩ := by
  obtain ⟨d1, h1⟩ := C12_vector uk k1 k2 u v
  obtain ⟨d2, h2⟩ := C12_vector uk d1 k3 (u ++ v) w
  obtain ⟨d3, h3⟩ := C12_vector uk k2 k3 v w
  obtain ⟨d4, h4⟩ := C12_vector uk k1 d3 u (v ++ w)
  refine ⟨_, d2, d4, ?_, ?_, rfl⟩
  · rw [h1]; simp only [Except.bind]; rw [h2]
  · rw [h3]; simp only [Except.bind]; rw [h4, ← List.append_assoc]

/-- C12: a scalar on the left of a non-empty array contributes one cell of copies of itself at the
front of axis `k`. -/
theorem C12_scalar_left {α} (uk : List α → Kind) (ax : CatAxis) (kr : Kind) (l : α) (b : Arr α) (k : Nat)
    (hwb : b.WF) (hnb : b.data ≠ []) (hk : k < b.shape.length) (hax : AxisIs ax b.shape.length k) :
    ∃ kd r, catenate uk ax (.scalar l) (.arr kr b) = .ok (.arr kd r) ∧ r.WF ∧
      r.shape = b.shape.set k (1 + b.shape.getD k 0) ∧
      ∀ idx, InB r.shape idx →
        r.get? idx = if idx.getD k 0 = 0 then some l else b.get? (idx.set k (idx.getD k 0 - 1)) := by
  have hne : b.shape.set k 1 ≠ [] := by
    intro h; have := congrArg List.length h; simp at this; rw [this] at hk; simp at hk
  let a : Arr α := ⟨b.shape.set k 1, List.replicate (prod (b.shape.set k 1)) l⟩
  have hwa : a.WF := by simp [a, Arr.WF, prod_eq_size hne]
  have hx1 : a.shape.getD k 0 = 1 := by simp only [a]; rw [getD_set, if_pos ⟨rfl, hk⟩]
  obtain ⟨r, g1, g2, g3, g4⟩ := catCore_spec k a b hwa hwb (by simp [a]) (by simpa [a] using hk) (by
    intro j _ hj; simp only [a]; rw [getD_set, if_neg (by omega)])
  refine ⟨uk r.data, r, ?_, g2, ?_, ?_⟩
  · unfold catenate
    rw [splitCat_arr hax (by simp only [Val.rank]; omega)]
    have hrs : reshapeScalar k l b.shape = .ok a := by unfold reshapeScalar; rw [if_pos hk]
    simp only [bind, Except.bind, noElems_arr hnb, Bool.false_eq_true, if_false,
      Int.toNat_natCast, hrs, show (Val.scalar l).noElems = false from rfl]
    rw [catAlign_same k _ kr a b (by simp [a])]
    simp only [g1, pure, Except.pure]
  · rw [g3, hx1]; simp only [a, List.set_set]
  · intro idx hidx
    rw [g4 idx hidx, hx1]
    by_cases hz : idx.getD k 0 = 0
    · rw [if_pos (by omega), if_pos hz]
      have hin : InB a.shape idx := by
        rw [InB_iff] at hidx ⊢
        rw [g3] at hidx
        simp only [List.length_set] at hidx
        refine ⟨hidx.1, ?_⟩
        intro j hj
        have := hidx.2 j hj
        rw [getD_set] at this
        by_cases e : j = k
        · subst e; omega
        · rw [if_neg (by omega)] at this; exact this
      rw [Arr.get?_of_inB hin]
      have := flat_lt hin
      simp only [a] at this ⊢
      rw [List.getElem?_replicate, if_pos (by rw [prod_eq_size hne]; exact this)]
    · rw [if_neg (by omega), if_neg hz]

/-- C12: a scalar on the right of a non-empty array contributes one cell of copies of itself at the end of axis `k`.  Deviation: without an
axis, `k` is not the last but the first axis of the array: `M,0` adds a row to a matrix. -/
theorem C12_scalar_right {α} (uk : List α → Kind) (ax : CatAxis) (kl : Kind) (a : Arr α) (x : α) (k : Nat)
    (hwa : a.WF) (hna : a.data ≠ []) (hk : k < a.shape.length) (hax : ax = .int (k : Int) ∨ (ax = .last ∧ k = 0)) :
    ∃ kd r, catenate uk ax (.arr kl a) (.scalar x) = .ok (.arr kd r) ∧ r.WF ∧
      r.shape = a.shape.set k (a.shape.getD k 0 + 1) ∧
      ∀ idx, InB r.shape idx →
        r.get? idx = if idx.getD k 0 < a.shape.getD k 0 then a.get? idx else some x := by
  have hne : a.shape.set k 1 ≠ [] := by
    intro h; have := congrArg List.length h; simp at this; rw [this] at hk; simp at hk
  let b : Arr α := ⟨a.shape.set k 1, List.replicate (prod (a.shape.set k 1)) x⟩
  have hwb : b.WF := by simp [b, Arr.WF, prod_eq_size hne]
  have hx1 : b.shape.getD k 0 = 1 := by simp only [b]; rw [getD_set, if_pos ⟨rfl, hk⟩]
  obtain ⟨r, g1, g2, g3, g4⟩ := catCore_spec k a b hwa hwb (by simp [b]) hk (by
    intro j _ hj; simp only [b]; rw [getD_set, if_neg (by omega)])
  refine ⟨uk r.data, r, ?_, g2, by rw [g3, hx1], ?_⟩
  · have hsp : splitCatAxis (.arr kl a) (.scalar x) ax = .ok ((k : Int), false) := by
      rcases hax with rfl | ⟨rfl, rfl⟩
      · rw [splitCat_int, if_neg (by simp only [Val.rank]; omega)]
      · rfl
    unfold catenate
    rw [hsp]
    have hrs : reshapeScalar k x a.shape = .ok b := by unfold reshapeScalar; rw [if_pos hk]
    simp only [bind, Except.bind, noElems_arr hna, Bool.false_eq_true, if_false,
      Int.toNat_natCast, hrs, show (Val.scalar x).noElems = false from rfl]
    rw [catAlign_same k kl _ a b (by simp [b])]
    simp only [g1, pure, Except.pure]
  · intro idx hidx
    rw [g4 idx hidx]
    by_cases hz : idx.getD k 0 < a.shape.getD k 0
    · rw [if_pos hz, if_pos hz]
    · rw [if_neg hz, if_neg hz]
      have hin : InB b.shape (idx.set k (idx.getD k 0 - a.shape.getD k 0)) := by
        rw [InB_iff] at hidx ⊢
        rw [g3] at hidx
        simp only [List.length_set, b] at hidx ⊢
        refine ⟨hidx.1, ?_⟩
        intro j hj
        have := hidx.2 j hj
        rw [getD_set] at this
        rw [getD_set, getD_set]
        by_cases e : j = k
        · subst e
          rw [if_pos ⟨rfl, hk⟩] at this
          rw [if_pos ⟨rfl, by omega⟩, if_pos ⟨rfl, hk⟩]
          have h1 := hx1
          simp only [b] at h1
          omega
        · rw [if_neg (by omega)] at this
          rw [if_neg (by omega), if_neg (by omega)]; exact this
      rw [Arr.get?_of_inB hin]
      have := flat_lt hin
      simp only [b] at this ⊢
      rw [List.getElem?_replicate, if_pos (by rw [prod_eq_size hne]; exact this)]

/-- C12, deviation: `M,0` and `M,V` for a matrix `M` add a row (and not a column) when no axis is given. -/
theorem C12_right_adds_row : catenate (fun _ => .int) .last (.arr .int ⟨[2, 2], [1, 2, 3, 4]⟩) (.scalar 9) =
      (.ok (.arr .int ⟨[3, 2], [1, 2, 3, 4, 9, 9]⟩) : Res (Val Nat)) ∧
    catenate (fun _ => .int) .last (.arr .int ⟨[2, 2], [1, 2, 3, 4]⟩) (.arr .int ⟨[2], [8, 9]⟩) =
      (.ok (.arr .int ⟨[3, 2], [1, 2, 3, 4, 8, 9]⟩) : Res (Val Nat)) ∧
    catenate (fun _ => .int) .last (.scalar 9) (.arr .int ⟨[2, 2], [1, 2, 3, 4]⟩) =
      (.ok (.arr .int ⟨[2, 3], [9, 1, 2, 9, 3, 4]⟩) : Res (Val Nat)) := by
  refine ⟨?_, ?_, ?_⟩ <;> rfl

/-- C13.  Laminating two arrays of equal shape at position `x`: a new axis of length 2 whose first
cell is `L` and whose second cell is `R`. -/
theorem C13_laminate_core {α} (x : Nat) (a b : Arr α) (hwa : a.WF) (hwb : b.WF) (hs : a.shape = b.shape)
    (hne : a.shape ≠ []) (hx : x ≤ a.shape.length) :
    ∃ r, lamCore x a b = .ok r ∧ r.WF ∧ r.shape = a.shape.insertIdx x 2 ∧
      ∀ idx, InB r.shape idx → InB a.shape (idx.eraseIdx x) ∧
        r.get? idx = if idx.getD x 0 = 0 then a.get? (idx.eraseIdx x) else b.get? (idx.eraseIdx x) := by
  let ns := a.shape.insertIdx x 2
  have hnsl : ns.length = a.shape.length + 1 := by simp only [ns]; rw [List.length_insertIdx, if_pos hx]
  have hns : ns ≠ [] := by intro h; rw [h] at hnsl; simp at hnsl
  have hsh : lamShape x a.shape = .ok ns := by
    unfold lamShape
    rw [forLoop_ok (g := fun i => ns.getD i 0)]
    · congr 1
      rw [← hnsl]
      exact range_map_getElem ns _ (fun k hk => by simp [List.getD, hk])
    · intro i hi
      simp only [ns]
      rw [getD_insertIdx _ _ _ _ hx]
      by_cases e : i = x
      · rw [if_pos e, if_neg (by omega), if_pos e]
      · rw [if_neg e]
        by_cases h : i < x
        · rw [if_neg (by omega), if_pos h, sliceAt_ok (by omega)]
          have hlt : i < a.shape.length := by omega
          simp [List.getD, hlt]
        · rw [if_pos (by omega), if_neg h, if_neg e, sliceAt_ok (by omega)]
          have hlt : i - 1 < a.shape.length := by omega
          simp [List.getD, hlt]
  have hin : ∀ idx, InB ns idx → InB a.shape (idx.eraseIdx x) := fun idx h => InB_erase_of_insert hx h
  obtain ⟨r, h1, h2, h3, h4⟩ := odo_spec (s := ns) (body := fun _ dst =>
      let src := dst.take x ++ dst.drop (x + 1)
      if dst.getD x 0 = 0 then sliceAt a.data (icIndex (strides a.shape) src)
      else sliceAt b.data (icIndex (strides a.shape) src))
    (g := fun idx => if idx.getD x 0 = 0 then a.get? (idx.eraseIdx x) else b.get? (idx.eraseIdx x)) (by
      intro idx h
      simp only [take_drop_eraseIdx]
      have hi := hin idx h
      have hib : InB b.shape (idx.eraseIdx x) := by rw [← hs]; exact hi
      rw [icIndex_strides hi.length_eq]
      have hlt := flat_lt hi
      split
      · rw [Arr.get?_of_inB hi]
        rw [← hwa] at hlt
        exact ⟨_, sliceAt_ok hlt, List.getElem?_eq_getElem hlt⟩
      · rw [Arr.get?_of_inB hib, ← hs]
        rw [hs, ← hwb, ← hs] at hlt
        exact ⟨_, sliceAt_ok hlt, List.getElem?_eq_getElem hlt⟩)
  refine ⟨r, ?_, h3, h2, ?_⟩
  · unfold lamCore
    rw [if_neg (by rw [hs]; simp), if_neg (by rw [hs]; simp), hsh, newIdxConverter_ok hne]
    simp only [bind, Except.bind, prod_eq_size hns, h1, pure, Except.pure]
    rw [← h2]
  · intro idx hidx
    rw [h2] at hidx
    exact ⟨hin idx hidx, h4 idx hidx⟩

/-- C13 through the primitive: the axis argument has floor `f` (zero-based), so the new axis is at
position `f+1`; `f` ranges over -1..rank-1. -/
theorem C13_laminate {α} (uk : List α → Kind) (kl kr : Kind) (f : Int) (a b : Arr α) (hwa : a.WF) (hwb : b.WF)
    (hs : a.shape = b.shape) (hne : a.shape ≠ []) (hf : -1 ≤ f ∧ f < a.shape.length) :
    ∃ kd r, catenate uk (.frac f) (.arr kl a) (.arr kr b) = .ok (.arr kd r) ∧ r.WF ∧
      r.shape = a.shape.insertIdx (f + 1).toNat 2 ∧
      ∀ idx, InB r.shape idx → InB a.shape (idx.eraseIdx (f + 1).toNat) ∧
        r.get? idx = if idx.getD (f + 1).toNat 0 = 0 then a.get? (idx.eraseIdx (f + 1).toNat)
          else b.get? (idx.eraseIdx (f + 1).toNat) := by
  obtain ⟨r, h1, h2, h3, h4⟩ := C13_laminate_core (f + 1).toNat a b hwa hwb hs hne (by omega)
  refine ⟨uk r.data, r, ?_, h2, h3, h4⟩
  unfold catenate
  rw [splitCat_frac hf.1 (by rw [rank_arr]; omega)]
  simp only [bind, Except.bind, if_true, laminate, h1, pure, Except.pure]

/-- C13: a scalar side is extended to the shape of the other side. -/
theorem C13_scalar_left {α} (uk : List α → Kind) (kr : Kind) (f : Int) (l : α) (b : Arr α) (hwb : b.WF)
    (hne : b.shape ≠ []) (hf : -1 ≤ f ∧ f < b.shape.length) :
    ∃ kd r, catenate uk (.frac f) (.scalar l) (.arr kr b) = .ok (.arr kd r) ∧ r.WF ∧
      r.shape = b.shape.insertIdx (f + 1).toNat 2 ∧
      ∀ idx, InB r.shape idx →
        r.get? idx = if idx.getD (f + 1).toNat 0 = 0 then some l
          else b.get? (idx.eraseIdx (f + 1).toNat) := by
  let a : Arr α := ⟨b.shape, List.replicate (prod b.shape) l⟩
  have hwa : a.WF := by simp [a, Arr.WF, prod_eq_size hne]
  obtain ⟨r, h1, h2, h3, h4⟩ := C13_laminate_core (f + 1).toNat a b hwa hwb rfl hne (by simp only [a]; omega)
  refine ⟨uk r.data, r, ?_, h2, h3, ?_⟩
  · unfold catenate
    rw [splitCat_frac hf.1 (by rw [rank_arr]; omega)]
    simp only [bind, Except.bind, if_true, laminate]
    have h1' : lamCore (f + 1).toNat ⟨b.shape, List.replicate (prod b.shape) l⟩ b = .ok r := h1
    rw [h1']
    rfl
  · intro idx hidx
    obtain ⟨hi, hg⟩ := h4 idx hidx
    rw [hg]
    split
    · rw [Arr.get?_of_inB hi]
      have := flat_lt hi
      simp only [a] at this ⊢
      rw [List.getElem?_replicate, if_pos (by rw [prod_eq_size hne]; exact this)]
    · rfl

/-- C13: a scalar on the right is extended to the shape of the left side. -/
theorem C13_scalar_right {α} (uk : List α → Kind) (kl : Kind) (f : Int) (a : Arr α) (x : α) (hwa : a.WF)
    (hne : a.shape ≠ []) (hf : -1 ≤ f ∧ f < a.shape.length) :
    ∃ kd r, catenate uk (.frac f) (.arr kl a) (.scalar x) = .ok (.arr kd r) ∧ r.WF ∧
      r.shape = a.shape.insertIdx (f + 1).toNat 2 ∧
      ∀ idx, InB r.shape idx →
        r.get? idx = if idx.getD (f + 1).toNat 0 = 0 then a.get? (idx.eraseIdx (f + 1).toNat) else some x := by
  let b : Arr α := ⟨a.shape, List.replicate (prod a.shape) x⟩
  have hwb : b.WF := by simp [b, Arr.WF, prod_eq_size hne]
  obtain ⟨r, h1, h2, h3, h4⟩ := C13_laminate_core (f + 1).toNat a b hwa hwb rfl hne (by omega)
  refine ⟨uk r.data, r, ?_, h2, h3, ?_⟩
  · unfold catenate
    rw [splitCat_frac hf.1 (by rw [rank_arr]; omega)]
    simp only [bind, Except.bind, if_true, laminate]
    have h1' : lamCore (f + 1).toNat a ⟨a.shape, List.replicate (prod a.shape) x⟩ = .ok r := h1
    rw [h1']
    rfl
  · intro idx hidx
    obtain ⟨hi, hg⟩ := h4 idx hidx
    rw [hg]
    split
    · rfl
    · have hi' : InB b.shape (idx.eraseIdx (f + 1).toNat) := hi
      rw [Arr.get?_of_inB hi']
      have := flat_lt hi'
      simp only [b] at this ⊢
      rw [List.getElem?_replicate, if_pos (by rw [prod_eq_size hne]; exact this)]

/-- C13: two scalars laminated at position 0 are a vector of two; a later position is rejected. -/
theorem C13_scalars {α} (uk : List α → Kind) (x y : α) :
    catenate uk (.frac (-1)) (.scalar x) (.scalar y) = .ok (.arr (uk [x, y]) ⟨[2], [x, y]⟩) ∧
    catenate uk (.frac 0) (.scalar x) (.scalar y) = .error .err := ⟨rfl, rfl⟩

/-- C13: shapes that differ are rejected. -/
theorem C13_reject {α} (uk : List α → Kind) (kl kr : Kind) (f : Int) (a b : Arr α) (hs : a.shape ≠ b.shape)
    (hf : -1 ≤ f ∧ f < a.shape.length) :
    catenate uk (.frac f) (.arr kl a) (.arr kr b) = .error .err := by
  have : lamCore (f + 1).toNat a b = .error .err := by
    unfold lamCore
    by_cases h : a.shape.length ≠ b.shape.length
    · rw [if_pos h]
    · rw [if_neg h, if_pos hs]
  unfold catenate
  rw [splitCat_frac hf.1 (by rw [rank_arr]; omega)]
  simp only [bind, Except.bind, if_true, laminate, this]

/-- The range check of the fractional axis admits one value too many: an axis whose floor equals the
rank crashes instead of being rejected. -/
theorem C13_axis_bound_panics :
    catenate (fun _ => .int) (.frac 1) (.arr .int ⟨[2], [1, 2]⟩) (.arr .int ⟨[2], [3, 4]⟩) =
      (.error .panic : Res (Val Nat)) := by rfl

example : catenate (fun _ => .int) .last (.arr .int ⟨[2, 2], [1, 2, 3, 4]⟩) (.arr .int ⟨[2, 1], [5, 6]⟩) =
      (.ok (.arr .int ⟨[2, 3], [1, 2, 5, 3, 4, 6]⟩) : Res (Val Nat)) := by rfl
example : catenate (fun _ => .int) (.frac 0) (.arr .int ⟨[2], [1, 2]⟩) (.arr .int ⟨[2], [3, 4]⟩) =
      (.ok (.arr .int ⟨[2, 2], [1, 3, 2, 4]⟩) : Res (Val Nat)) := by rfl
example : AxisIs .last 2 1 ∧ (⟨[2, 2], [1, 2, 3, 4]⟩ : Arr Nat).WF := ⟨Or.inr ⟨rfl, rfl⟩, by decide⟩

end Iv

import Verif.Lemmas.TakeDrop
/-
C05, C06: take and drop.
-/
namespace Iv

/-- Axis `k`'s count: the entry of `L` at the position where `k` stands in the axis order
(given axes first, then the remaining axes ascending; without axes this is `L[k]`). -/
def countFor (L : List Int) (rank : Nat) (x : List Int) (k : Nat) : Option Int :=
  L[(axisOrder rank x).idxOf k]?

/-- without an axis specification the count of axis `k` is `L[k]` -/
theorem countFor_default (L : List Int) (rank k : Nat) (hk : k < rank) :
    countFor L rank [] k = L[k]? := by
  unfold countFor
  rw [axisOrder_nil]
  congr 1
  have := (List.nodup_range (n := rank)).idxOf_getElem k (by simpa using hk)
  simpa using this

/-- C05.  `L↑[x]A` for every array of rank ≥ 1, every distinct valid axis list (`[]` = all axes in
order) and every integer vector `L` no longer than the rank succeeds; axis `k` has length `|n|`
where `n` is its count (its full length when `L` gives none).  At every index vector of the result
the element is the element of `A` at the same index for `n ≥ 0`, and at the index shifted by
`len + n` for `n < 0` (so that the trailing `|n|` positions are taken), if that lies inside `A`,
and otherwise the fill `z`. -/
theorem C05_take {α} (z : α) (L : List Int) (a : Arr α) (x : List Int)
    (hw : a.WF) (hs : a.shape ≠ []) (hn : x.Nodup)
    (hx : ∀ n ∈ x, 0 ≤ n ∧ n < a.shape.length) (hL : L.length ≤ a.shape.length) :
    ∃ r, takedropArr true z L a x = .ok r ∧ r.WF ∧ r.shape.length = a.shape.length ∧
      (∀ k, k < a.shape.length → r.shape.getD k 0 =
        match countFor L a.shape.length x k with
        | some n => n.natAbs
        | none => a.shape.getD k 0) ∧
      ∀ idx, InB r.shape idx →
        let src : Nat → Int := fun k => (idx.getD k 0 : Int) +
          (match countFor L a.shape.length x k with
           | some n => if n < 0 then (a.shape.getD k 0 : Int) + n else 0
           | none => 0)
        ((∀ k, k < a.shape.length → 0 ≤ src k ∧ src k < a.shape.getD k 0) →
          r.get? idx = a.get? ((List.range a.shape.length).map (fun k => (src k).toNat)) ∧
          InB a.shape ((List.range a.shape.length).map (fun k => (src k).toNat))) ∧
        (¬ (∀ k, k < a.shape.length → 0 ≤ src k ∧ src k < a.shape.getD k 0) →
          r.get? idx = some z) := by
  have hal := axisOrder_length hn hx
  obtain ⟨r, h1, h2, h3, h4, h5⟩ := takeArr_spec z (padCounts true a.shape L (axisOrder a.shape.length x)) a
    (axisOrder a.shape.length x) (padCounts_length (by omega)) (axisOrder_nodup hn hx)
    (axisOrder_lt hx) hs hw
  have hget : ∀ k, k < a.shape.length →
      (padCounts true a.shape L (axisOrder a.shape.length x))[(axisOrder a.shape.length x).idxOf k]? =
        some ((countFor L a.shape.length x k).getD (a.shape.getD k 0 : Int)) := by
    intro k hk
    rw [padCounts_get (axisOrder_mem hk)]
    unfold countFor
    cases L[(axisOrder a.shape.length x).idxOf k]? <;> simp
  have hst : ∀ k, k < a.shape.length → takeStart a.shape
      (padCounts true a.shape L (axisOrder a.shape.length x))[(axisOrder a.shape.length x).idxOf k]? k =
      (match countFor L a.shape.length x k with
           | some n => if n < 0 then (a.shape.getD k 0 : Int) + n else 0
           | none => 0) := by
    intro k hk
    rw [hget k hk]
    unfold takeStart
    cases countFor L a.shape.length x k with
    | none => simp; intro h; omega
    | some n => simp
  refine ⟨r, ?_, h2, h3, ?_, ?_⟩
  · unfold takedropArr
    rw [completeAxes_ok hn hx]
    simp only [bind, Except.bind]
    rw [if_neg (by omega)]
    exact h1
  · intro k hk
    rw [h4 k hk, hget k hk]
    unfold takeLen
    cases countFor L a.shape.length x k <;> simp
  · intro idx hidx src
    have hsrc : ∀ k, k < a.shape.length → (idx.getD k 0 : Int) + takeStart a.shape
      (padCounts true a.shape L (axisOrder a.shape.length x))[(axisOrder a.shape.length x).idxOf k]? k = src k := by
      intro k hk; rw [hst k hk]
    have h5' := h5 idx hidx
    have hmap : (List.range a.shape.length).map (fun k => ((idx.getD k 0 : Int) + takeStart a.shape
      (padCounts true a.shape L (axisOrder a.shape.length x))[(axisOrder a.shape.length x).idxOf k]? k).toNat)
      = (List.range a.shape.length).map (fun k => (src k).toNat) := by
      apply List.map_congr_left
      intro k hk
      rw [hsrc k (by simpa using hk)]
    simp only [hmap] at h5'
    have hiff : (∀ k, k < a.shape.length → 0 ≤ (idx.getD k 0 : Int) + takeStart a.shape
      (padCounts true a.shape L (axisOrder a.shape.length x))[(axisOrder a.shape.length x).idxOf k]? k ∧
        (idx.getD k 0 : Int) + takeStart a.shape
      (padCounts true a.shape L (axisOrder a.shape.length x))[(axisOrder a.shape.length x).idxOf k]? k < a.shape.getD k 0)
      ↔ (∀ k, k < a.shape.length → 0 ≤ src k ∧ src k < a.shape.getD k 0) := by
      constructor
      · intro h k hk; have := h k hk; rwa [hsrc k hk] at this
      · intro h k hk; have := h k hk; rwa [← hsrc k hk] at this
    rw [hiff] at h5'
    exact h5'

/-- C05: more counts than axes, or an axis that is repeated or out of range, is rejected. -/
theorem C05_reject {α} (t : Bool) (z : α) (L : List Int) (a : Arr α) (x : List Int) :
    (a.shape.length < L.length ∨ ¬ x.Nodup ∨ (∃ n ∈ x, n < 0 ∨ (a.shape.length : Int) ≤ n)) →
    takedropArr t z L a x = .error .err := by
  intro h
  unfold takedropArr
  by_cases hn : x.Nodup
  · by_cases hx : ∀ n ∈ x, 0 ≤ n ∧ n < a.shape.length
    · rw [completeAxes_ok hn hx]
      have : a.shape.length < L.length := by
        rcases h with h | h | ⟨n, hm, h⟩
        · exact h
        · exact absurd hn h
        · have := hx n hm; omega
      simp [bind, Except.bind, this]
    · unfold completeAxes
      have : ¬ (x.all (fun n => decide (0 ≤ n ∧ n < a.shape.length)) = true) := by
        simp only [List.all_eq_true, decide_eq_true_eq]; exact hx
      rw [if_pos this]
      split <;> rfl
  · unfold completeAxes
    rw [if_pos hn]
    split
    · rfl
    · split <;> rfl

example : takedropArr true (0:Int) [3, -1] ⟨[2, 2], [1, 2, 3, 4]⟩ [] =
    .ok ⟨[3, 1], [2, 4, 0]⟩ := by decide
example : takedropArr true (0:Int) [-3] ⟨[2, 2], [1, 2, 3, 4]⟩ [1] =
    .ok ⟨[2, 3], [0, 1, 2, 0, 3, 4]⟩ := by decide

/-- C06.  `L↓[x]A` under the same conditions succeeds; axis `k` with count `n` keeps
`max(0, len-|n|)` positions (all of them when `L` gives no count), and the element at an index
vector of the result is the element of `A` at that index shifted by `n` for positive `n` (leading
positions dropped) and unshifted otherwise; it always lies inside `A`, no fill occurs. -/
theorem C06_drop {α} (z : α) (L : List Int) (a : Arr α) (x : List Int)
    (hw : a.WF) (hs : a.shape ≠ []) (hn : x.Nodup)
    (hx : ∀ n ∈ x, 0 ≤ n ∧ n < a.shape.length) (hL : L.length ≤ a.shape.length) :
    ∃ r, takedropArr false z L a x = .ok r ∧ r.WF ∧ r.shape.length = a.shape.length ∧
      (∀ k, k < a.shape.length → r.shape.getD k 0 =
        a.shape.getD k 0 - ((countFor L a.shape.length x k).getD 0).natAbs) ∧
      ∀ idx, InB r.shape idx →
        let src : List Nat := (List.range a.shape.length).map (fun k => idx.getD k 0 +
          ((countFor L a.shape.length x k).getD 0).toNat)
        InB a.shape src ∧ r.get? idx = a.get? src := by
  have hal := axisOrder_length hn hx
  let ax := axisOrder a.shape.length x
  let ai := List.zipWith (fun k n => dropToTake (a.shape.getD k 0) n) ax (padCounts false a.shape L ax)
  have hpl : (padCounts false a.shape L ax).length = ax.length := padCounts_length (by simp only [ax]; omega)
  obtain ⟨r, h1, h2, h3, h4, h5⟩ := takeArr_spec z ai a ax (by simp [ai, hpl]) (axisOrder_nodup hn hx)
    (axisOrder_lt hx) hs hw
  have hget : ∀ k, k < a.shape.length →
      ai[ax.idxOf k]? = some (dropToTake (a.shape.getD k 0) ((countFor L a.shape.length x k).getD 0)) := by
    intro k hk
    have hm : k ∈ ax := axisOrder_mem hk
    have hi : ax.idxOf k < ax.length := List.idxOf_lt_length_of_mem hm
    have hp := padCounts_get (t := false) (rs := a.shape) (L := L) hm
    simp only [ai, List.getElem?_zipWith]
    rw [hp, List.getElem?_eq_getElem hi, List.getElem_idxOf hi]
    unfold countFor
    show some _ = some _
    congr 2
    cases L[ax.idxOf k]? <;> simp
  have hlen : ∀ k, k < a.shape.length → r.shape.getD k 0 =
        a.shape.getD k 0 - ((countFor L a.shape.length x k).getD 0).natAbs := by
    intro k hk
    rw [h4 k hk, hget k hk]
    simp only [takeLen]
    generalize (countFor L a.shape.length x k).getD 0 = n
    generalize a.shape.getD k 0 = m
    unfold dropToTake
    split
    · simp; omega
    · split <;> omega
  refine ⟨r, ?_, h2, h3, hlen, ?_⟩
  · unfold takedropArr
    rw [completeAxes_ok hn hx]
    simp only [bind, Except.bind]
    rw [if_neg (by omega)]
    exact h1
  · intro idx hidx src
    have hb := InB_iff.1 hidx
    have hsrc : ∀ k, k < a.shape.length →
        (idx.getD k 0 : Int) + takeStart a.shape ai[ax.idxOf k]? k =
          ((idx.getD k 0 + ((countFor L a.shape.length x k).getD 0).toNat : Nat) : Int) ∧
        (idx.getD k 0 + ((countFor L a.shape.length x k).getD 0).toNat : Nat) < a.shape.getD k 0 := by
      intro k hk
      have hlt := hb.2 k (by omega)
      rw [hlen k hk] at hlt
      rw [hget k hk]
      simp only [takeStart]
      revert hlt
      generalize (countFor L a.shape.length x k).getD 0 = n
      generalize a.shape.getD k 0 = m
      generalize idx.getD k 0 = i
      intro hlt
      unfold dropToTake
      split
      · omega
      · split
        · rw [if_pos (by omega)]; omega
        · rw [if_neg (by omega)]; omega
    have hall := (h5 idx hidx).1 (by
      intro k hk
      have := hsrc k hk
      show 0 ≤ (idx.getD k 0 : Int) + takeStart a.shape ai[ax.idxOf k]? k ∧
        (idx.getD k 0 : Int) + takeStart a.shape ai[ax.idxOf k]? k < _
      rw [this.1]
      omega)
    have hmap : (List.range a.shape.length).map (fun k => ((idx.getD k 0 : Int) + takeStart a.shape
      ai[ax.idxOf k]? k).toNat) = src := by
      apply List.map_congr_left
      intro k hk
      have := (hsrc k (by simpa using hk)).1
      simp only [this, Int.toNat_natCast]
    simp only [hmap] at hall
    exact ⟨hall.2, hall.1⟩

example : takedropArr false (0:Int) [1, -1] ⟨[2, 3], [1, 2, 3, 4, 5, 6]⟩ [] =
    .ok ⟨[1, 2], [4, 5]⟩ := by decide
example : takedropArr false (0:Int) [5] ⟨[2, 3], [1, 2, 3, 4, 5, 6]⟩ [] =
    .ok ⟨[0, 3], []⟩ := by decide

/-- C05 for vectors: a non-negative count takes the leading elements and pads at the end, a
negative one takes the trailing elements and pads at the front. -/
theorem C05_take_vector {α} (z : α) (v : List α) (n : Nat) :
    takedropArr true z [(n : Int)] ⟨[v.length], v⟩ [] =
      .ok ⟨[n], v.take n ++ List.replicate (n - v.length) z⟩ ∧
    takedropArr true z [-(n : Int)] ⟨[v.length], v⟩ [] =
      .ok ⟨[n], List.replicate (n - v.length) z ++ v.drop (v.length - n)⟩ := by
  have first : ∀ n : Nat, takedropArr true z [(n : Int)] ⟨[v.length], v⟩ [] =
      .ok ⟨[n], v.take n ++ List.replicate (n - v.length) z⟩ := by
    intro n
    obtain ⟨r, h1, h2, h3, h4, h5⟩ := C05_take z [(n : Int)] ⟨[v.length], v⟩ [] (by simp [Arr.WF, size])
      (by simp) (by simp) (by simp) (by simp)
    rw [h1]
    congr 1
    have hsh : r.shape = [n] := shape_one h3 (by simpa [countFor_default] using h4 0 (by simp))
    refine vec_eq h2 hsh (by simp; omega) ?_
    intro i hi
    have := h5 [i] (by rw [hsh]; simp [InB, hi])
    simp only [List.length_cons, List.length_nil, Nat.zero_add, Nat.lt_one_iff, forall_eq,
      countFor_default _ _ _ (Nat.zero_lt_one), List.getElem?_cons_zero, List.range_one,
      List.map_cons, List.map_nil] at this
    have hng : ¬ ((n : Int) < 0) := by omega
    simp only [hng, if_false, List.getD_cons_zero, Int.add_zero, Int.toNat_natCast] at this
    rcases Nat.lt_or_ge i v.length with hlt | hge
    · have h := (this.1 (by omega)).1
      rw [get?_vec_lt hsh hi] at h
      rw [get?_vec_lt (n := v.length) rfl (by omega)] at h
      rw [h, List.getElem?_append_left (by simp; omega), List.getElem?_take_of_lt hi]
    · have h := this.2 (by omega)
      rw [get?_vec_lt hsh hi] at h
      rw [h, List.getElem?_append_right (by simp; omega), List.getElem?_replicate, if_pos (by simp; omega)]
  refine ⟨first n, ?_⟩
  rcases Nat.eq_zero_or_pos n with h0 | hpos
  · subst h0
    simpa using first 0
  · obtain ⟨r, h1, h2, h3, h4, h5⟩ := C05_take z [-(n : Int)] ⟨[v.length], v⟩ [] (by simp [Arr.WF, size])
      (by simp) (by simp) (by simp) (by simp)
    rw [h1]
    congr 1
    have hsh : r.shape = [n] := shape_one h3 (by simpa [countFor_default] using h4 0 (by simp))
    refine vec_eq h2 hsh (by simp; omega) ?_
    intro i hi
    have := h5 [i] (by rw [hsh]; simp [InB, hi])
    simp only [List.length_cons, List.length_nil, Nat.zero_add, Nat.lt_one_iff, forall_eq,
      countFor_default _ _ _ (Nat.zero_lt_one), List.getElem?_cons_zero, List.range_one,
      List.map_cons, List.map_nil] at this
    have hng : (-(n : Int) < 0) := by omega
    simp only [hng, if_true, List.getD_cons_zero, ← Int.sub_eq_add_neg] at this
    have this : ((0 ≤ (i : Int) + ((v.length : Int) - (n : Int)) ∧ (i : Int) + ((v.length : Int) - (n : Int)) < v.length) →
        r.get? [i] = (Arr.mk [v.length] v).get? [((i : Int) + ((v.length : Int) - (n : Int))).toNat]) ∧
        (¬ (0 ≤ (i : Int) + ((v.length : Int) - (n : Int)) ∧ (i : Int) + ((v.length : Int) - (n : Int)) < v.length) →
        r.get? [i] = some z) := ⟨fun h => (this.1 h).1, this.2⟩
    rcases Nat.lt_or_ge i (n - v.length) with hlt | hge
    · have h := this.2 (by omega)
      rw [get?_vec_lt hsh hi] at h
      rw [h, List.getElem?_append_left (by simp; omega), List.getElem?_replicate, if_pos hlt]
    · have h := (this.1 (by omega))
      rw [get?_vec_lt hsh hi] at h
      rw [get?_vec_lt (n := v.length) rfl (by omega)] at h
      rw [h, List.getElem?_append_right (by simp; omega), List.getElem?_drop]
      congr 1
      simp only [List.length_replicate]
      omega

/-- C06 for vectors: `n↓V` removes the leading (`-n`: trailing) `n` elements. -/
theorem C06_drop_vector {α} (z : α) (v : List α) (n : Nat) :
    takedropArr false z [(n : Int)] ⟨[v.length], v⟩ [] = .ok ⟨[v.length - n], v.drop n⟩ ∧
    takedropArr false z [-(n : Int)] ⟨[v.length], v⟩ [] =
      .ok ⟨[v.length - n], v.take (v.length - n)⟩ := by
  constructor
  · obtain ⟨r, h1, h2, h3, h4, h5⟩ := C06_drop z [(n : Int)] ⟨[v.length], v⟩ [] (by simp [Arr.WF, size])
      (by simp) (by simp) (by simp) (by simp)
    rw [h1]
    congr 1
    have hsh : r.shape = [v.length - n] := shape_one h3 (by simpa [countFor_default] using h4 0 (by simp))
    refine vec_eq h2 hsh (by simp) ?_
    intro i hi
    have := (h5 [i] (by rw [hsh]; simp [InB, hi])).2
    simp only [List.length_cons, List.length_nil, Nat.zero_add,
      countFor_default _ _ _ (Nat.zero_lt_one), List.getElem?_cons_zero, List.range_one,
      List.map_cons, List.map_nil, Option.getD_some, List.getD_cons_zero, Int.toNat_natCast] at this
    rw [get?_vec_lt hsh hi, get?_vec_lt (n := v.length) rfl (by omega)] at this
    rw [this, List.getElem?_drop, Nat.add_comm]
  · obtain ⟨r, h1, h2, h3, h4, h5⟩ := C06_drop z [-(n : Int)] ⟨[v.length], v⟩ [] (by simp [Arr.WF, size])
      (by simp) (by simp) (by simp) (by simp)
    rw [h1]
    congr 1
    have hsh : r.shape = [v.length - n] := shape_one h3 (by simpa [countFor_default] using h4 0 (by simp))
    refine vec_eq h2 hsh (by simp) ?_
    intro i hi
    have := (h5 [i] (by rw [hsh]; simp [InB, hi])).2
    simp only [List.length_cons, List.length_nil, Nat.zero_add,
      countFor_default _ _ _ (Nat.zero_lt_one), List.getElem?_cons_zero, List.range_one,
      List.map_cons, List.map_nil, Option.getD_some, List.getD_cons_zero] at this
    have e : (-(n : Int)).toNat = 0 := by omega
    rw [e, get?_vec_lt hsh hi, get?_vec_lt (n := v.length) rfl (by omega)] at this
    rw [this, List.getElem?_take_of_lt hi]; rfl

/-- C06: `(n↑V),(n↓V)` is `V` for `0 ≤ n ≤ ≢V`. -/
theorem C06_partition {α} (z : α) (v : List α) (n : Nat) (hn : n ≤ v.length) :
    ∃ t d, takedropArr true z [(n : Int)] ⟨[v.length], v⟩ [] = .ok t ∧
      takedropArr false z [(n : Int)] ⟨[v.length], v⟩ [] = .ok d ∧ t.data ++ d.data = v := by
  refine ⟨_, _, (C05_take_vector z v n).1, (C06_drop_vector z v n).1, ?_⟩
  have : n - v.length = 0 := by omega
  simp [this, List.take_append_drop]

example : ∃ n, n ≤ [1, 2, 3].length ∧ 0 < n := ⟨2, by decide⟩

end Iv

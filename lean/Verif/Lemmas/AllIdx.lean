import Verif.Lemmas.Gather
namespace Iv

theorem range_mul (n m : Nat) : List.range (n * m) = (List.range n).flatMap (fun i => (List.range m).map (i * m + ·)) := by
  induction n with
  | zero => simp
  | succ n ih =>
    rw [Nat.succ_mul, List.range_add, ih, List.range_succ, List.flatMap_append]
    simp

theorem allIdx_eq (s : List Nat) : allIdx s = (List.range (size s)).map (unflat s) := by
  induction s with
  | nil => simp [allIdx, size, unflat]
  | cons n ns ih =>
    simp only [allIdx, size]
    rw [range_mul, List.map_flatMap, ih]
    congr 1
    funext i
    rw [List.map_map, List.map_map]
    apply List.map_congr_left
    intro j hj
    have hj := List.mem_range.1 hj
    simp only [Function.comp, unflat]
    congr 1
    · rw [Nat.mul_comm, Nat.mul_add_div (by omega), Nat.div_eq_of_lt hj]; rfl
    · rw [Nat.mul_comm, Nat.mul_add_mod, Nat.mod_eq_of_lt hj]

theorem allIdx_getElem? {s idx : List Nat} (h : InB s idx) : (allIdx s)[flat s idx]? = some idx := by
  rw [allIdx_eq, List.getElem?_map, List.getElem?_range (flat_lt h)]
  simp [unflat_flat h]

theorem mem_allIdx {s idx : List Nat} : idx ∈ allIdx s ↔ InB s idx := by
  constructor
  · intro h
    rw [allIdx_eq] at h
    obtain ⟨k, hk, he⟩ := List.mem_map.1 h
    rw [← he]
    exact unflat_inB (List.mem_range.1 hk)
  · intro h
    exact List.mem_of_getElem? (allIdx_getElem? h)

theorem allIdx_length (s : List Nat) : (allIdx s).length = size s := by
  rw [allIdx_eq]; simp

/-- keeping the index vectors whose `k`-th component satisfies `P` enumerates, in row-major order,
the smaller array whose `k`-th axis lists the kept positions -/
theorem allIdx_filter (s : List Nat) (k : Nat) (hk : k < s.length) (P : Nat → Bool) :
    (allIdx s).filter (fun idx => P (idx.getD k 0)) =
      (allIdx (s.set k ((List.range (s.getD k 0)).filter P).length)).map
        (fun idx => idx.set k (((List.range (s.getD k 0)).filter P).getD (idx.getD k 0) 0)) := by
  induction s generalizing k with
  | nil => simp at hk
  | cons n ns ih =>
    cases k with
    | zero =>
      simp only [List.getD_cons_zero, List.set_cons_zero, allIdx]
      rw [List.filter_flatMap, List.map_flatMap]
      let keep := (List.range n).filter P
      have e1 : ∀ i, ((allIdx ns).map (i :: ·)).filter (fun idx => P (idx.getD 0 0)) =
          if P i then (allIdx ns).map (i :: ·) else [] := by
        intro i
        rw [List.filter_map]
        by_cases h : P i
        · rw [if_pos h]
          congr 1
          rw [List.filter_eq_self]
          intro a _; simpa using h
        · rw [if_neg h]
          have : (allIdx ns).filter ((fun idx => P (idx.getD 0 0)) ∘ (i :: ·)) = [] := by
            rw [List.filter_eq_nil_iff]
            intro a _; simpa using h
          rw [this]; rfl
      simp only [e1]
      have e2 : ∀ l : List Nat, l.flatMap (fun i => if P i then (allIdx ns).map (i :: ·) else []) =
          (l.filter P).flatMap (fun i => (allIdx ns).map (i :: ·)) := by
        intro l
        induction l with
        | nil => rfl
        | cons i l ihl =>
          simp only [List.flatMap_cons, List.filter_cons, ihl]
          by_cases h : P i
          · simp [h]
          · simp [h]
      rw [e2]
      show keep.flatMap _ = _
      have e3 : keep = (List.range keep.length).map (fun i => keep.getD i 0) := by
        apply List.ext_getElem (by simp)
        intro i h1 h2
        simp [List.getD, h1]
      conv => lhs; rw [e3]
      rw [List.flatMap_map]
      congr 1
      funext i
      rw [List.map_map]
      apply List.map_congr_left
      intro a _
      simp [keep]
    | succ k =>
      simp only [List.getD_cons_succ, List.set_cons_succ, allIdx]
      simp only [List.length_cons] at hk
      have ih' := ih k (by omega)
      rw [List.filter_flatMap, List.map_flatMap]
      congr 1
      funext i
      rw [List.filter_map, List.map_map]
      have : (allIdx ns).filter ((fun idx => P (idx.getD (k + 1) 0)) ∘ (i :: ·)) =
          (allIdx ns).filter (fun idx => P (idx.getD k 0)) := by
        congr 1
      rw [this, ih', List.map_map]
      apply List.map_congr_left
      intro a _
      simp

end Iv

import Verif.Model.Reverse
import Verif.Lemmas.Gather
namespace Iv

theorem rot_eq (i : Nat) (n : Int) (m : Nat) (hm : 0 < m) : rot i n m = ((i : Int) + n) % (m : Int) := by
  unfold rot
  rw [Int.tmod_eq_emod]
  have h1 := Int.emod_nonneg ((i : Int) + n) (b := (m : Int)) (by omega)
  have h2 := Int.emod_lt_of_pos ((i : Int) + n) (b := (m : Int)) (by omega)
  have hab : ((m : Int).natAbs : Int) = m := by omega
  by_cases hc : 0 ≤ (i : Int) + n ∨ (m : Int) ∣ (i : Int) + n
  · simp only [hc, if_true]
    rw [if_neg (by omega)]; omega
  · simp only [hc, if_false]
    split <;> omega

theorem rot_range (i : Nat) (n : Int) (m : Nat) (hm : 0 < m) : 0 ≤ rot i n m ∧ rot i n m < m := by
  rw [rot_eq i n m hm]
  exact ⟨Int.emod_nonneg _ (by omega), Int.emod_lt_of_pos _ (by omega)⟩

theorem take_drop_eraseIdx {β} (l : List β) (k : Nat) : l.take k ++ l.drop (k + 1) = l.eraseIdx k :=
  (List.eraseIdx_eq_take_drop_succ l k).symm

theorem getD_eraseIdx (l : List Nat) (k i : Nat) :
    (l.eraseIdx k).getD i 0 = l.getD (if k ≤ i then i + 1 else i) 0 := by
  simp only [List.getD, List.getElem?_eraseIdx]
  by_cases h : i < k
  · rw [if_pos h, if_neg (by omega)]
  · rw [if_neg h, if_pos (by omega)]

theorem InB_eraseIdx {s i : List Nat} (h : InB s i) (k : Nat) : InB (s.eraseIdx k) (i.eraseIdx k) := by
  have hl := h.length_eq
  rw [InB_iff] at *
  refine ⟨by simp [List.length_eraseIdx, hl], ?_⟩
  intro j hj
  rw [getD_eraseIdx, getD_eraseIdx]
  apply h.2
  rw [List.length_eraseIdx] at hj
  split at hj <;> split <;> omega

theorem eraseIdx_eq_of {s t : List Nat} {k : Nat} (hk : k < s.length) (hl : t.length = s.length - 1)
    (h : ∀ i, i < t.length → s.getD (if k ≤ i then i + 1 else i) 0 = t.getD i 0) : t = s.eraseIdx k := by
  apply List.ext_getElem
  · rw [List.length_eraseIdx, if_pos hk, hl]
  · intro i h1 h2
    have e1 : t.getD i 0 = t[i] := by simp [List.getD, h1]
    have e2 : (s.eraseIdx k).getD i 0 = (s.eraseIdx k)[i] := by simp [List.getD, h2]
    rw [← e1, ← e2, getD_eraseIdx, h i h1]

theorem eraseIdx_set_self {β} (l : List β) (k : Nat) (v : β) : (l.set k v).eraseIdx k = l.eraseIdx k := by
  rw [List.eraseIdx_eq_take_drop_succ, List.eraseIdx_eq_take_drop_succ]
  congr 1
  · rw [List.take_set]; apply List.set_eq_of_length_le; simp [List.length_take]; omega
  · rw [List.drop_set]; simp

theorem rotateArr_eq {α} (L : Arr Int) (a : Arr α) (axis : Int) (h : a.shape.length ≠ 1) :
    rotateArr L a axis = (do
    let shape := a.shape
    let ax ← normAxis shape.length axis
    let L ← extendRot L shape.length
    if L.shape.length ≠ shape.length - 1 then .error .err
    else if ¬ ((List.range L.shape.length).all (fun i =>
        shape.getD (if ax ≤ i then i + 1 else i) 0 == L.shape.getD i 0)) then .error .err
    else do
      let (lic, _) ← newIdxConverter L.shape
      let (ric, _) ← newIdxConverter shape
      let axsize := shape.getD ax 0
      let d ← odoLoop shape (fun _ dst => do
        let n ← sliceAt L.data (icIndex lic (dst.take ax ++ dst.drop (ax + 1)))
        let s := rot (dst.getD ax 0) n axsize
        if s < 0 then .error .panic
        else sliceAt a.data (icIndex ric (dst.set ax s.toNat))) (prod shape) 0
          (List.replicate shape.length 0)
      return ⟨shape, d⟩) := by
  unfold rotateArr
  split
  · rename_i size hs; rw [hs] at h; simp at h
  · rfl

end Iv

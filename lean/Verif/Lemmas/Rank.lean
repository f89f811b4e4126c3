import Verif.Model.Rank
import Verif.Lemmas.Dot
import Verif.Lemmas.Take
import Verif.Lemmas.Reshape
namespace Iv
variable {α : Type}

theorem getD_append_l {β} (l r : List β) (d : β) (j : Nat) : (l ++ r).getD j d = if j < l.length then l.getD j d else r.getD (j - l.length) d := by
  simp only [List.getD, List.getElem?_append]
  split <;> rfl

theorem getD_of_le {β} (l : List β) (d : β) (j : Nat) (h : l.length ≤ j) : l.getD j d = d := by
  simp [List.getD, List.getElem?_eq_none h]

/-- component from the right -/
theorem rev_getD (l : List Nat) (j : Nat) : l.reverse.getD j 0 = if j < l.length then l.getD (l.length - 1 - j) 0 else 0 := by
  split
  · rename_i h
    simp only [List.getD, List.getElem?_reverse h]
  · rename_i h
    exact getD_of_le _ _ _ (by simpa using h)

theorem commonStep_length (c s : List Nat) : (commonStep c s).length = max c.length s.length := by
  unfold commonStep
  simp only [List.length_append, List.length_take, List.length_zipWith, List.length_drop, List.length_replicate]
  omega

theorem commonStep_rev (c s : List Nat) (j : Nat) : (commonStep c s).reverse.getD j 0 = max (c.reverse.getD j 0) (s.reverse.getD j 0) := by
  rw [rev_getD, rev_getD, rev_getD, commonStep_length]
  unfold commonStep
  simp only [List.length_append, List.length_replicate]
  have hzip : ∀ (l l' : List Nat) (i : Nat), l.length = l'.length → (List.zipWith max l l').getD i 0 = max (l.getD i 0) (l'.getD i 0) := by
    intro l l' i h
    simp only [List.getD, List.getElem?_zipWith]
    by_cases hi : i < l.length
    · rw [List.getElem?_eq_getElem hi, List.getElem?_eq_getElem (by omega)]; rfl
    · rw [List.getElem?_eq_none (by omega), List.getElem?_eq_none (by omega)]; rfl
  by_cases h : j < max c.length s.length
  · rw [if_pos h, getD_append_l]
    have htl : ((List.replicate (s.length - c.length) 0 ++ c).take (s.length - c.length + c.length - s.length)).length = c.length - s.length := by
      simp; omega
    rw [htl]
    by_cases h1 : j < s.length
    · rw [if_pos h1, if_neg (by omega), hzip _ _ _ (by simp; omega)]
      have hd : ((List.replicate (s.length - c.length) 0 ++ c).drop (s.length - c.length + c.length - s.length)).getD
          (max c.length s.length - 1 - j - (c.length - s.length)) 0 = if j < c.length then c.getD (c.length - 1 - j) 0 else 0 := by
        simp only [List.getD, List.getElem?_drop]
        rw [List.getElem?_append]
        simp only [List.length_replicate]
        split
        · rename_i h2
          rw [if_neg (by omega), List.getElem?_replicate]
          split <;> rfl
        · rename_i h2
          rw [if_pos (by omega)]
          congr 2
          omega
      rw [hd]
      congr 2
      omega
    · rw [if_pos (by omega), if_neg h1, if_pos (by omega)]
      simp only [Nat.max_zero]
      simp only [List.getD]
      rw [List.getElem?_take, if_pos (by omega), List.getElem?_append, if_neg (by simp; omega)]
      simp only [List.length_replicate]
      congr 2
      omega
  · rw [if_neg h, if_neg (by omega), if_neg (by omega)]; rfl

theorem foldl_commonStep (l : List (List Nat)) (c : List Nat) :
    (l.foldl commonStep c).length = l.foldl (fun n s => max n s.length) c.length ∧
    ∀ j, (l.foldl commonStep c).reverse.getD j 0 = l.foldl (fun n s => max n (s.reverse.getD j 0)) (c.reverse.getD j 0) := by
  induction l generalizing c with
  | nil => exact ⟨rfl, fun _ => rfl⟩
  | cons s l ih =>
    obtain ⟨h1, h2⟩ := ih (commonStep c s)
    refine ⟨by rw [List.foldl_cons, h1, List.foldl_cons, commonStep_length], ?_⟩
    intro j
    rw [List.foldl_cons, h2, List.foldl_cons, commonStep_rev]

theorem foldl_max_spec {β} (l : List β) (g : β → Nat) (c : Nat) :
    c ≤ l.foldl (fun n s => max n (g s)) c ∧ (∀ s ∈ l, g s ≤ l.foldl (fun n s => max n (g s)) c) ∧
    (l.foldl (fun n s => max n (g s)) c = c ∨ ∃ s ∈ l, g s = l.foldl (fun n s => max n (g s)) c) := by
  induction l generalizing c with
  | nil => exact ⟨Nat.le_refl _, by simp, Or.inl rfl⟩
  | cons s l ih =>
    obtain ⟨h1, h2, h3⟩ := ih (max c (g s))
    simp only [List.foldl_cons]
    refine ⟨by omega, ?_, ?_⟩
    · intro t ht
      rcases List.mem_cons.1 ht with rfl | ht
      · omega
      · exact h2 t ht
    · rcases h3 with h3 | ⟨t, ht, h4⟩
      · rw [h3]
        by_cases hc : g s ≤ c
        · left; omega
        · right; exact ⟨s, by simp, by omega⟩
      · right; exact ⟨t, by simp [ht], h4⟩

/-- an array with leading axes of length one -/
theorem ones_size (n : Nat) (s : List Nat) : size (List.replicate n 1 ++ s) = size s := by
  induction n with
  | zero => rfl
  | succ n ih => simp [List.replicate_succ, size, ih]

theorem ones_InB {n : Nat} {s j : List Nat} (h : InB (List.replicate n 1 ++ s) j) :
    j.take n = List.replicate n 0 ∧ InB s (j.drop n) := by
  induction n generalizing j with
  | zero => exact ⟨rfl, by simpa using h⟩
  | succ n ih =>
    cases j with
    | nil => simp [List.replicate_succ, InB] at h
    | cons i j =>
      simp only [List.replicate_succ, List.cons_append, InB] at h
      obtain ⟨h1, h2⟩ := ih h.2
      have : i = 0 := by omega
      subst this
      exact ⟨by simp [List.replicate_succ, h1], by simpa using h2⟩

theorem InB_ones {n : Nat} {s j : List Nat} (h1 : j.take n = List.replicate n 0) (h2 : InB s (j.drop n)) :
    InB (List.replicate n 1 ++ s) j := by
  have hj : j = List.replicate n 0 ++ j.drop n := by rw [← h1, List.take_append_drop]
  rw [hj]
  clear h1
  generalize j.drop n = r at h2
  clear hj
  induction n with
  | zero => simpa using h2
  | succ n ih => simp only [List.replicate_succ, List.cons_append, InB]; exact ⟨by omega, ih⟩

theorem flat_ones {n : Nat} {s r : List Nat} : flat (List.replicate n 1 ++ s) (List.replicate n 0 ++ r) = flat s r := by
  induction n with
  | zero => rfl
  | succ n ih => simp [List.replicate_succ, flat, ih]

/-- A usable result of a cell: a scalar, or an array with elements. -/
def GoodCell : Val α → Prop
  | .scalar _ => True
  | .arr _ a => a.WF ∧ a.shape ≠ [] ∧ a.data ≠ []
  | _ => False

/-- Specification: element `j` of a result brought to `common`.length axes: a scalar is repeated; an
array gets leading axes of length 1 and is padded behind with the fill value `z`. -/
def padAt (z : Kind → α) (rank : Nat) (v : Val α) (j : List Nat) : Option α :=
  match v with
  | .scalar x => some x
  | .arr k a =>
    let d := rank - a.shape.length
    if j.take d = List.replicate d 0 ∧ InB a.shape (j.drop d) then a.get? (j.drop d) else some (z k)
  | _ => none

def cellRank : Val α → Nat
  | .arr _ a => a.shape.length
  | _ => 0

theorem reshape_ones (k : Kind) (a : Arr α) (hw : a.WF) (hne : a.data ≠ []) (hs : a.shape ≠ []) (n : Nat) :
    reshapeArr k a.data ((List.replicate n 1 ++ a.shape).map Int.ofNat) = .ok (.arr k ⟨List.replicate n 1 ++ a.shape, a.data⟩) := by
  obtain ⟨d, h1, h2, h3⟩ := reshapeArr_ok k a.data hne (List.replicate n 1 ++ a.shape) (by simp [hs])
  rw [h1]
  congr 3
  rw [ones_size] at h2 h3
  apply List.ext_getElem?
  intro i
  by_cases hi : i < size a.shape
  · rw [h3 i hi, Nat.mod_eq_of_lt (by rw [hw]; exact hi)]
  · rw [List.getElem?_eq_none (by omega), List.getElem?_eq_none (by rw [hw]; omega)]

theorem range_idxOf (n k : Nat) (hk : k < n) : (List.range n).idxOf k = k := by
  have := (List.nodup_range (n := n)).idxOf_getElem k (by simpa using hk)
  simpa using this

theorem conform_spec (uk : List α → Kind) (zero : α) (zk : Kind → α) (common : List Nat) (hc : common ≠ []) (v : Val α) (hg : GoodCell v)
    (hr : cellRank v ≤ common.length) :
    ∃ k a', conform uk zero zk common v = .ok (.arr k a') ∧ a'.shape = common ∧ a'.WF ∧
      ∀ j, InB common j → a'.get? j = padAt zk common.length v j := by
  have hpos : 0 < common.length := List.length_pos_iff.2 hc
  cases v with
  | scalar x =>
    refine ⟨uk (List.replicate (prod common) x), ⟨common, List.replicate (prod common) x⟩, ?_, rfl, ?_, ?_⟩
    · simp [conform, hpos]
    · simp [Arr.WF, prod_eq_size hc]
    · intro j hj
      rw [Arr.get?_of_inB hj]
      simp only [padAt, List.getElem?_replicate, prod_eq_size hc]
      rw [if_pos (flat_lt hj)]
  | empty => exact absurd hg (by simp [GoodCell])
  | bad d l => exact absurd hg (by simp [GoodCell])
  | arr k a =>
    obtain ⟨hw, hs, hne⟩ := hg
    simp only [cellRank] at hr
    have hgetp : ∀ j, InB (List.replicate (common.length - a.shape.length) 1 ++ a.shape) j →
        (Arr.mk (List.replicate (common.length - a.shape.length) 1 ++ a.shape) a.data).get? j = a.get? (j.drop (common.length - a.shape.length)) := by
      intro j hj
      obtain ⟨h1, h2⟩ := ones_InB hj
      rw [Arr.get?_of_inB hj, Arr.get?_of_inB h2]
      have hj' : j = List.replicate (common.length - a.shape.length) 0 ++ j.drop (common.length - a.shape.length) := by
        rw [← h1, List.take_append_drop]
      conv => lhs; rw [hj']
      simp only [flat_ones]
    have hwp : (Arr.mk (List.replicate (common.length - a.shape.length) 1 ++ a.shape) a.data).WF := by
      unfold Arr.WF; simp only [ones_size]; exact hw
    simp only [conform, reshape_ones k a hw hne hs, bind, Except.bind, pure, Except.pure]
    by_cases he : common = List.replicate (common.length - a.shape.length) 1 ++ a.shape
    · rw [if_pos he]
      refine ⟨k, _, rfl, he.symm, hwp, ?_⟩
      intro j hj
      rw [he] at hj
      rw [hgetp j hj]
      obtain ⟨h1, h2⟩ := ones_InB hj
      simp only [padAt]
      rw [if_pos ⟨h1, h2⟩]
    · rw [if_neg he]
      have hpl : (List.replicate (common.length - a.shape.length) 1 ++ a.shape).length = common.length := by simp; omega
      obtain ⟨r, h1, h2, h3, h4, h5⟩ := takeArr_spec (zk k) (common.map Int.ofNat)
        (Arr.mk (List.replicate (common.length - a.shape.length) 1 ++ a.shape) a.data) (List.range common.length)
        (by simp) List.nodup_range (by intro j hj; simp only [hpl]; simpa using hj) (by simp [hs]) hwp
      rw [h1]
      simp only [hpl] at h3 h4 h5
      have hsh : r.shape = common := by
        apply List.ext_getElem
        · exact h3
        · intro i hi1 hi2
          have := h4 i hi2
          rw [range_idxOf _ _ hi2] at this
          simp only [List.getElem?_map, List.getElem?_eq_getElem hi2, Option.map_some, takeLen] at this
          rw [← getD_eq_getElem r.shape 0 hi1, this]; simp
      refine ⟨k, r, rfl, hsh, h2, ?_⟩
      intro j hj
      rw [← hsh] at hj
      obtain ⟨h6, h7⟩ := h5 j hj
      rw [hsh] at hj
      have hjl := hj.length_eq
      have hsrc : ∀ i, i < common.length → (j.getD i 0 : Int) + takeStart (List.replicate (common.length - a.shape.length) 1 ++ a.shape)
          (common.map Int.ofNat)[(List.range common.length).idxOf i]? i = (j.getD i 0 : Int) := by
        intro i hi
        rw [range_idxOf _ _ hi]
        simp only [List.getElem?_map, List.getElem?_eq_getElem hi, Option.map_some, takeStart]
        rw [if_neg (by simp)]; omega
      have hiff : (∀ k_1, k_1 < common.length → 0 ≤ (j.getD k_1 0 : Int) + takeStart (List.replicate (common.length - a.shape.length) 1 ++ a.shape)
          (common.map Int.ofNat)[(List.range common.length).idxOf k_1]? k_1 ∧ (j.getD k_1 0 : Int) + takeStart (List.replicate (common.length - a.shape.length) 1 ++ a.shape)
          (common.map Int.ofNat)[(List.range common.length).idxOf k_1]? k_1 < ((List.replicate (common.length - a.shape.length) 1 ++ a.shape).getD k_1 0 : Int)) ↔
          InB (List.replicate (common.length - a.shape.length) 1 ++ a.shape) j := by
        rw [InB_iff, hpl]
        constructor
        · intro h
          refine ⟨hjl, fun i hi => ?_⟩
          have := (h i hi).2
          rw [hsrc i hi] at this
          omega
        · intro h i hi
          rw [hsrc i hi]
          have := h.2 i hi
          omega
      have hmap : (List.range common.length).map (fun k_1 => ((j.getD k_1 0 : Int) + takeStart (List.replicate (common.length - a.shape.length) 1 ++ a.shape)
          (common.map Int.ofNat)[(List.range common.length).idxOf k_1]? k_1).toNat) = j := by
        conv => rhs; rw [list_eq_range_getD j 0 common.length hjl]
        apply List.map_congr_left
        intro i hi
        rw [hsrc i (by simpa using hi)]; simp
      simp only [padAt]
      by_cases hin : InB (List.replicate (common.length - a.shape.length) 1 ++ a.shape) j
      · obtain ⟨h8, _⟩ := h6 (hiff.2 hin)
        rw [h8, hmap, hgetp j hin, if_pos (ones_InB hin)]
      · rw [h7 (fun h => hin (hiff.1 h)), if_neg (fun h => hin (InB_ones h.1 h.2))]

theorem flatten_get {β} (parts : List (List β)) (n : Nat) (h : ∀ p ∈ parts, p.length = n) (i k : Nat) (hk : k < n) :
    parts.flatten[i * n + k]? = (parts[i]?).bind (fun p => p[k]?) := by
  induction parts generalizing i with
  | nil => simp
  | cons p parts ih =>
    have hp := h p (by simp)
    rw [List.flatten_cons, List.getElem?_append]
    cases i with
    | zero => rw [if_pos (by omega)]; simp
    | succ i =>
      rw [if_neg (by rw [Nat.add_mul]; omega)]
      rw [show (i + 1) * n + k - p.length = i * n + k by rw [Nat.add_mul]; omega]
      rw [ih (fun q hq => h q (by simp [hq]))]
      simp

theorem flatten_length' {β} (parts : List (List β)) (n : Nat) (h : ∀ p ∈ parts, p.length = n) : parts.flatten.length = parts.length * n := by
  induction parts with
  | nil => simp
  | cons p parts ih =>
    rw [List.flatten_cons, List.length_append, ih (fun q hq => h q (by simp [hq])), h p (by simp), List.length_cons, Nat.add_mul]; omega

end Iv

import Verif.Lemmas.Take
namespace Iv

theorem nodup_map_toNat {x : List Int} (hn : x.Nodup) (hx : ∀ n ∈ x, 0 ≤ n) :
    (x.map Int.toNat).Nodup := by
  unfold List.Nodup at *
  rw [List.pairwise_map]
  exact hn.imp_of_mem (fun {a b} ha hb h => by
    have := hx a ha; have := hx b hb; omega)

theorem axisOrder_nodup {rank : Nat} {x : List Int} (hn : x.Nodup) (hx : ∀ n ∈ x, 0 ≤ n ∧ n < rank) :
    (axisOrder rank x).Nodup := by
  unfold axisOrder
  rw [List.nodup_append]
  refine ⟨nodup_map_toNat hn (fun n h => (hx n h).1), List.nodup_range.filter _, ?_⟩
  intro a ha b hb hab
  subst hab
  simp at ha hb
  obtain ⟨n, hn1, hn2⟩ := ha
  have := hx n hn1
  apply hb.2
  have : (a : Int) = n := by omega
  rw [this]; exact hn1

theorem axisOrder_lt {rank : Nat} {x : List Int} (hx : ∀ n ∈ x, 0 ≤ n ∧ n < rank) :
    ∀ j ∈ axisOrder rank x, j < rank := by
  intro j hj
  unfold axisOrder at hj
  simp at hj
  rcases hj with ⟨n, h1, h2⟩ | h
  · have := hx n h1; omega
  · exact h.1

theorem axisOrder_mem {rank : Nat} {x : List Int} {k : Nat} (hk : k < rank) :
    k ∈ axisOrder rank x := by
  unfold axisOrder
  simp
  by_cases h : (k : Int) ∈ x
  · left; exact ⟨k, h, by simp⟩
  · right; exact ⟨hk, h⟩

theorem axisOrder_length {rank : Nat} {x : List Int} (hn : x.Nodup) (hx : ∀ n ∈ x, 0 ≤ n ∧ n < rank) :
    (axisOrder rank x).length = rank := by
  have h1 : (axisOrder rank x).Perm (List.range rank) := by
    rw [List.perm_ext_iff_of_nodup (axisOrder_nodup hn hx) List.nodup_range]
    intro a
    simp only [List.mem_range]
    exact ⟨axisOrder_lt hx a, axisOrder_mem⟩
  simpa using h1.length_eq

theorem axisOrder_nil (rank : Nat) : axisOrder rank [] = List.range rank := by
  simp [axisOrder]

theorem completeAxes_ok {rank : Nat} {x : List Int} (hn : x.Nodup) (hx : ∀ n ∈ x, 0 ≤ n ∧ n < rank) :
    completeAxes rank x = .ok (axisOrder rank x) := by
  unfold completeAxes
  have hlen : x.length ≤ rank := by
    have := axisOrder_length hn hx
    simp [axisOrder] at this; omega
  rw [if_neg (by omega), if_neg (by simp; intro n h; exact hx n h), if_neg (by simpa using hn)]
  rfl

theorem padCounts_length {t rs L x} (h : L.length ≤ x.length) : (padCounts t rs L x).length = x.length := by
  simp [padCounts]; omega

theorem padCounts_get {t : Bool} {rs : List Nat} {L : List Int} {x : List Nat} {k : Nat} (hk : k ∈ x) :
    (padCounts t rs L x)[x.idxOf k]? = some (match L[x.idxOf k]? with
      | some n => n
      | none => if t then (rs.getD k 0 : Int) else 0) := by
  have hi : x.idxOf k < x.length := List.idxOf_lt_length_of_mem hk
  unfold padCounts
  rcases Nat.lt_or_ge (x.idxOf k) L.length with h | h
  · rw [List.getElem?_append_left h]; simp [h]
  · rw [List.getElem?_append_right h, List.getElem?_map, List.getElem?_drop]
    have e : L.length + (x.idxOf k - L.length) = x.idxOf k := by omega
    rw [e, List.getElem?_eq_getElem hi, List.getElem_idxOf hi, List.getElem?_eq_none h]
    simp

theorem newIdxConverter_ok {s : List Nat} (h : s ≠ []) :
    newIdxConverter s = .ok (strides s, List.replicate s.length 0) := by
  cases s with
  | nil => exact absurd rfl h
  | cons => rfl

theorem shape_one {s : List Nat} {n : Nat} (h1 : s.length = 1) (h2 : s.getD 0 0 = n) : s = [n] := by
  match s, h1 with
  | [m], _ => simpa using h2

theorem get?_vec {α} {a : Arr α} {n i : Nat} (h : a.shape = [n]) :
    a.get? [i] = if i < n then a.data[i]? else none := by
  simp [Arr.get?, h, InB, flat, size]

theorem get?_vec_lt {α} {a : Arr α} {n i : Nat} (h : a.shape = [n]) (hi : i < n) :
    a.get? [i] = a.data[i]? := by
  simp [Arr.get?, h, InB, flat, size, hi]

theorem vec_eq {α} {r : Arr α} {n : Nat} {l : List α} (hw : r.WF) (hs : r.shape = [n])
    (hl : l.length = n) (h : ∀ i, i < n → r.data[i]? = l[i]?) : r = ⟨[n], l⟩ := by
  cases r with
  | mk s d =>
    simp only at hs h; subst hs
    congr 1
    simp [Arr.WF, size] at hw
    apply List.ext_getElem?
    intro i
    rcases Nat.lt_or_ge i n with hi | hi
    · exact h i hi
    · rw [List.getElem?_eq_none (by omega), List.getElem?_eq_none (by omega)]

end Iv

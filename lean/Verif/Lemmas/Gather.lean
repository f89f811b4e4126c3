import Verif.Lemmas.TakeDrop
namespace Iv

/-- An odometer loop that fetches, for every result index vector, the element of `a` at `f idx`. -/
theorem odo_gather {α} {a : Arr α} (hw : a.WF) {s : List Nat} {f : List Nat → List Nat}
    {body : Nat → List Nat → Res α}
    (hbody : ∀ idx, InB s idx → body (flat s idx) idx = sliceAt a.data (icIndex (strides a.shape) (f idx)))
    (hf : ∀ idx, InB s idx → InB a.shape (f idx)) :
    ∃ r : Arr α, odoLoop s body (size s) 0 (List.replicate s.length 0) = .ok r.data ∧
      r.shape = s ∧ r.WF ∧ ∀ idx, InB s idx → r.get? idx = a.get? (f idx) := by
  have hb : ∀ idx, InB s idx → ∃ v, body (flat s idx) idx = .ok v ∧ a.get? (f idx) = some v := by
    intro idx h
    have hin := hf idx h
    rw [hbody idx h, icIndex_strides hin.length_eq]
    have hlt := flat_lt hin
    have hlt' : flat a.shape (f idx) < a.data.length := by rw [hw]; exact hlt
    refine ⟨_, sliceAt_ok hlt', ?_⟩
    rw [Arr.get?_of_inB hin, List.getElem?_eq_getElem hlt']
  obtain ⟨r, h1, h2, h3, h4⟩ := odoLoop_arr (s := s) (body := body) (fun idx h => by
    obtain ⟨v, hv, _⟩ := hb idx h; exact ⟨v, hv⟩)
  refine ⟨r, h1, h2, h3, ?_⟩
  intro idx h
  obtain ⟨v, hv, hg⟩ := h4 idx h
  obtain ⟨v', hv', hg'⟩ := hb idx h
  rw [hv] at hv'
  cases hv'
  rw [hg, hg']

/-- An odometer loop whose body computes the specified element at every index vector. -/
theorem odo_spec {α} {s : List Nat} {g : List Nat → Option α} {body : Nat → List Nat → Res α}
    (hb : ∀ idx, InB s idx → ∃ v, body (flat s idx) idx = .ok v ∧ g idx = some v) :
    ∃ r : Arr α, odoLoop s body (size s) 0 (List.replicate s.length 0) = .ok r.data ∧
      r.shape = s ∧ r.WF ∧ ∀ idx, InB s idx → r.get? idx = g idx := by
  obtain ⟨r, h1, h2, h3, h4⟩ := odoLoop_arr (s := s) (body := body) (fun idx h => by
    obtain ⟨v, hv, _⟩ := hb idx h; exact ⟨v, hv⟩)
  refine ⟨r, h1, h2, h3, ?_⟩
  intro idx h
  obtain ⟨v, hv, hg⟩ := h4 idx h
  obtain ⟨v', hv', hg'⟩ := hb idx h
  rw [hv] at hv'
  cases hv'
  rw [hg, hg']

theorem getD_set {β} (l : List β) (k j : Nat) (v d : β) :
    (l.set k v).getD j d = if k = j ∧ k < l.length then v else l.getD j d := by
  simp only [List.getD, List.getElem?_set]
  split
  · rename_i h
    subst h
    by_cases h : k < l.length
    · simp [h]
    · simp [h]
  · rename_i h; simp [h]

theorem InB_set {s i : List Nat} {k v : Nat} (h : InB s i) (hv : v < s.getD k 0) :
    InB s (i.set k v) := by
  rw [InB_iff] at *
  refine ⟨by simpa using h.1, ?_⟩
  intro j hj
  rw [getD_set]
  split
  · rename_i hk; rw [← hk.1]; exact hv
  · exact h.2 j hj

theorem InB.getD_lt {s i : List Nat} (h : InB s i) {k : Nat} (hk : k < s.length) :
    i.getD k 0 < s.getD k 0 := (InB_iff.1 h).2 k hk

theorem set_getD_self {l : List Nat} {k : Nat} : l.set k (l.getD k 0) = l := by
  apply List.ext_getElem?
  intro j
  rw [List.getElem?_set]
  split
  · rename_i h; subst h
    split
    · rename_i h; simp [List.getD, h]
    · rename_i h; rw [List.getElem?_eq_none (by omega)]
  · rfl

end Iv

import Verif.Lemmas.Replicate
namespace Iv

theorem applySets_length {α} (d : List α) (ws : List (Nat × α)) : (applySets d ws).length = d.length := by
  unfold applySets
  induction ws generalizing d with
  | nil => rfl
  | cons w ws ih => simp only [List.foldl_cons]; rw [ih]; simp

theorem applySets_other {α} (d : List α) (ws : List (Nat × α)) (p : Nat) (h : ∀ w ∈ ws, w.1 ≠ p) :
    (applySets d ws)[p]? = d[p]? := by
  unfold applySets
  induction ws generalizing d with
  | nil => rfl
  | cons w ws ih =>
    simp only [List.foldl_cons]
    rw [ih _ (fun w' hw' => h w' (by simp [hw'])), List.getElem?_set_ne (h w (by simp))]

/-- all writes to `p` write `v`, and there is one -/
theorem applySets_get {α} (d : List α) (ws : List (Nat × α)) (p : Nat) (v : α) (hp : p < d.length)
    (hall : ∀ w ∈ ws, w.1 = p → w.2 = v) (hex : ∃ w ∈ ws, w.1 = p) :
    (applySets d ws)[p]? = some v := by
  induction ws generalizing d with
  | nil => obtain ⟨w, hw, _⟩ := hex; simp at hw
  | cons w ws ih =>
    have hrec : applySets d (w :: ws) = applySets (d.set w.1 w.2) ws := rfl
    rw [hrec]
    by_cases h : ∃ w' ∈ ws, w'.1 = p
    · exact ih _ (by simpa using hp) (fun w' hw' => hall w' (by simp [hw'])) h
    · rw [applySets_other _ _ _ (fun w' hw' he => h ⟨w', hw', he⟩)]
      obtain ⟨w', hw', he⟩ := hex
      rcases List.mem_cons.1 hw' with h' | h'
      · subst h'
        have := hall w' (by simp) he
        rw [he, this, List.getElem?_set_self hp]
      · exact absurd ⟨w', h', he⟩ h

theorem expAxis_mem {L : List Int} {j0 j : Nat} (h : some j ∈ expAxis L j0) :
    j0 ≤ j ∧ j < j0 + L.countP (fun k => decide (0 < k)) := by
  induction L generalizing j0 with
  | nil => simp [expAxis] at h
  | cons k ks ih =>
    simp only [expAxis] at h
    rw [List.countP_cons]
    by_cases h1 : k > 0
    · rw [if_pos h1] at h
      rw [if_pos (by simpa using h1)]
      rcases List.mem_append.1 h with h | h
      · have := List.eq_of_mem_replicate h
        cases this; omega
      · have := ih h; omega
    · rw [if_neg h1] at h
      rw [if_neg (by simpa using h1)]
      by_cases h2 : k = 0
      · rw [if_pos h2] at h
        rcases List.mem_cons.1 h with h | h
        · cases h
        · exact ih h
      · rw [if_neg h2] at h
        rcases List.mem_append.1 h with h | h
        · have := List.eq_of_mem_replicate h; cases this
        · exact ih h

theorem expLen_aux (L : List Int) (s : Nat) :
    L.foldl (fun s k => if k.natAbs > 1 then s + k.natAbs else s + 1) s = s + expLen L := by
  unfold expLen
  induction L generalizing s with
  | nil => rfl
  | cons k ks ih =>
    simp only [List.foldl_cons]
    rw [ih, ih (if k.natAbs > 1 then 0 + k.natAbs else 0 + 1)]
    split <;> omega

theorem expAxis_length (L : List Int) (j : Nat) : (expAxis L j).length = expLen L := by
  induction L generalizing j with
  | nil => rfl
  | cons k ks ih =>
    have : expLen (k :: ks) = (if k.natAbs > 1 then k.natAbs else 1) + expLen ks := by
      unfold expLen; simp only [List.foldl_cons]; rw [expLen_aux]; unfold expLen; split <;> omega
    rw [this]
    simp only [expAxis]
    by_cases h1 : k > 0
    · rw [if_pos h1, List.length_append, List.length_replicate, ih]
      split <;> omega
    · rw [if_neg h1]
      by_cases h2 : k = 0
      · rw [if_pos h2, List.length_cons, ih, if_neg (by omega)]; omega
      · rw [if_neg h2, List.length_append, List.length_replicate, ih]
        split <;> omega

theorem expand_core {α} (zero : α) (L : List Int) (a : Arr α) (k : Nat) (hw : a.WF)
    (hk : k < a.shape.length) (hL : L ≠ [])
    (hcnt : L.countP (fun n => decide (0 < n)) ≤ a.shape.getD k 0) :
    ∃ ws, odoLoop ((a.shape.set k (expLen L)).set k 1)
        (fun _ dst => expCell zero (expAxis L 0) a k (strides a.shape) (strides (a.shape.set k (expLen L))) dst)
        (size (a.shape.set k (expLen L)) / expLen L) 0
        (List.replicate ((a.shape.set k (expLen L)).set k 1).length 0) = .ok ws ∧
      ∀ idx, InB (a.shape.set k (expLen L)) idx → ∃ o, (expAxis L 0)[idx.getD k 0]? = some o ∧
        match o with
        | none => (applySets (List.replicate (size (a.shape.set k (expLen L))) zero) ws.flatten)[flat (a.shape.set k (expLen L)) idx]? = some zero
        | some j => InB a.shape (idx.set k j) ∧
          (applySets (List.replicate (size (a.shape.set k (expLen L))) zero) ws.flatten)[flat (a.shape.set k (expLen L)) idx]? = a.get? (idx.set k j) := by
  let shape := a.shape.set k (expLen L)
  let short := shape.set k 1
  let am := expAxis L 0
  have hamlen : am.length = expLen L := expAxis_length L 0
  have hpos : 0 < expLen L := by
    cases L with
    | nil => exact absurd rfl hL
    | cons n ns =>
      unfold expLen; simp only [List.foldl_cons]; rw [expLen_aux]; split <;> omega
  have hshl : shape.length = a.shape.length := by simp [shape]
  have hsk : shape.getD k 0 = expLen L := by simp only [shape]; rw [getD_set, if_pos ⟨rfl, hk⟩]
  have hsj : ∀ j, k ≠ j → shape.getD j 0 = a.shape.getD j 0 := by
    intro j hj; simp only [shape]; rw [getD_set, if_neg (by omega)]
  have hsize : size shape / expLen L = size short := by
    have h1 : size shape = expLen L * size short := by
      have := size_dvd_of_set shape k (expLen L) (by omega)
      have e : shape.set k (expLen L) = shape := by simp [shape]
      rw [e] at this
      exact this
    rw [h1, Nat.mul_div_cancel_left _ hpos]
  -- index facts
  have hin : ∀ dst d, InB short dst → d < expLen L → InB shape (dst.set k d) := by
    intro dst d h hd
    rw [InB_iff] at h ⊢
    simp only [short, List.length_set] at h ⊢
    refine ⟨h.1, ?_⟩
    intro j hj
    rw [getD_set]
    by_cases e : k = j
    · subst e; rw [if_pos ⟨rfl, by omega⟩, hsk]; exact hd
    · rw [if_neg (by omega)]
      have := h.2 j hj
      rwa [getD_set, if_neg (by omega)] at this
  have hina : ∀ dst j, InB short dst → some j ∈ am → InB a.shape (dst.set k j) := by
    intro dst j h hj
    have hj' := (expAxis_mem hj).2
    rw [InB_iff] at h ⊢
    simp only [short, List.length_set] at h ⊢
    refine ⟨by omega, ?_⟩
    intro i hi
    rw [getD_set]
    by_cases e : k = i
    · subst e; rw [if_pos ⟨rfl, by omega⟩]; omega
    · rw [if_neg (by omega)]
      have := h.2 i (by omega)
      rwa [getD_set, if_neg (by omega), hsj i e] at this
  let val : List Nat → Nat → Option α := fun dst d => match am.getD d none with
    | none => some zero
    | some j => a.get? (dst.set k j)
  -- one cell
  have hcell : ∀ dst, InB short dst → ∃ ws, expCell zero am a k (strides a.shape) (strides shape) dst = .ok ws ∧
      ws.length = am.length ∧ ∀ d, d < am.length → ∃ v, ws[d]? = some (flat shape (dst.set k d), v) ∧ val dst d = some v := by
    intro dst hdst
    have hb : ∀ d, d < am.length → ∃ v, (do
      match ← sliceAt am d with
      | none => return (icIndex (strides shape) (dst.set k d), zero)
      | some j => do
        let v ← sliceAt a.data (icIndex (strides a.shape) (dst.set k j))
        return (icIndex (strides shape) (dst.set k d), v) : Res (Nat × α)) = .ok (flat shape (dst.set k d), v) ∧ val dst d = some v := by
      intro d hd
      rw [icIndex_strides (hin dst d hdst (by omega)).length_eq]
      simp only [sliceAt_getD am none hd, bind, Except.bind, pure, Except.pure, val]
      cases ho : am.getD d none with
      | none => exact ⟨zero, rfl, rfl⟩
      | some j =>
        have hm : some j ∈ am := by
          rw [getD_eq_getElem _ _ hd] at ho; rw [← ho]; exact List.getElem_mem hd
        have hi := hina dst j hdst hm
        simp only
        rw [icIndex_strides hi.length_eq, Arr.get?_of_inB hi]
        have := flat_lt hi
        rw [← hw] at this
        rw [sliceAt_ok this]
        exact ⟨_, rfl, List.getElem?_eq_getElem this⟩
    obtain ⟨ws, h1, h2, h3⟩ := forLoop_ex am.length (fun d hd => by
      obtain ⟨v, hv, _⟩ := hb d hd; exact ⟨_, hv⟩)
    refine ⟨ws, h1, h2, ?_⟩
    intro d hd
    obtain ⟨v, hv, hval⟩ := hb d hd
    obtain ⟨w, hw1, hw2⟩ := h3 d hd
    rw [hv] at hw1
    cases hw1
    exact ⟨v, hw2, hval⟩
  obtain ⟨ws, h1, h2, h3⟩ := odoLoop_ex (s := short)
    (body := fun _ dst => expCell zero am a k (strides a.shape) (strides shape) dst) (size short) (Nat.le_refl _) (by
      intro i hi
      obtain ⟨w, hw, _⟩ := hcell _ (unflat_inB hi)
      exact ⟨w, hw⟩)
  refine ⟨ws, ?_, ?_⟩
  · show odoLoop short _ (size shape / expLen L) 0 _ = _
    rw [hsize]; exact h1
  · intro idx hidx
    have hidx : InB shape idx := hidx
    have hlk : idx.getD k 0 < expLen L := by
      have := hidx.getD_lt (k := k) (by omega); omega
    have hdst0 : InB short (idx.set k 0) := by
      rw [InB_iff] at hidx ⊢
      simp only [short, List.length_set] at hidx ⊢
      refine ⟨hidx.1, ?_⟩
      intro j hj
      rw [getD_set, getD_set]
      by_cases e : k = j
      · subst e; rw [if_pos ⟨rfl, by omega⟩, if_pos ⟨rfl, hj⟩]; omega
      · rw [if_neg (by omega), if_neg (by omega)]
        exact hidx.2 j hj
    have hlt : idx.getD k 0 < am.length := by omega
    -- the value to be found
    have hval : ∀ v, val idx (idx.getD k 0) = some v →
        (applySets (List.replicate (size shape) zero) ws.flatten)[flat shape idx]? = some v := by
      intro v hv
      apply applySets_get
      · rw [List.length_replicate]; exact flat_lt hidx
      · intro w hwm hwp
        obtain ⟨c, hc, hwc⟩ := List.mem_flatten.1 hwm
        obtain ⟨i, hi⟩ := List.getElem?_of_mem hc
        have hil : i < ws.length := (List.getElem?_eq_some_iff.1 hi).1
        obtain ⟨c', hb, hc'⟩ := h3 i (by omega)
        rw [hi] at hc'; cases hc'
        have hdst := unflat_inB (s := short) (k := i) (by omega)
        obtain ⟨c', hb', hcl, hcv⟩ := hcell _ hdst
        rw [hb] at hb'; cases hb'
        obtain ⟨d, hd⟩ := List.getElem?_of_mem hwc
        have hdl : d < am.length := by rw [← hcl]; exact (List.getElem?_eq_some_iff.1 hd).1
        obtain ⟨v', hv1, hv2⟩ := hcv d hdl
        rw [hd] at hv1
        cases hv1
        simp only at hwp ⊢
        have hin' := hin _ d hdst (by omega)
        have heq : (unflat short i).set k d = idx := by
          rw [← unflat_flat hin', hwp, unflat_flat hidx]
        have hdk : idx.getD k 0 = d := by
          rw [← heq, getD_set, if_pos ⟨rfl, by rw [unflat_length]; simp [short, shape, hk]⟩]
        rw [hdk] at hv
        have : val (unflat short i) d = val idx d := by
          simp only [val]
          rw [← heq]
          simp only [List.set_set]
        rw [this, hv] at hv2
        cases hv2; rfl
      · have hi := flat_lt hdst0
        obtain ⟨c, hb, hc⟩ := h3 _ hi
        obtain ⟨c', hb', hcl, hcv⟩ := hcell _ hdst0
        rw [unflat_flat hdst0] at hb
        rw [hb] at hb'; cases hb'
        obtain ⟨v', hv1, hv2⟩ := hcv _ hlt
        refine ⟨_, List.mem_flatten.2 ⟨c, List.mem_of_getElem? hc, List.mem_of_getElem? hv1⟩, ?_⟩
        simp only [List.set_set]
        rw [set_getD_self]
    refine ⟨am.getD (idx.getD k 0) none, ?_, ?_⟩
    · rw [getD_eq_getElem _ _ hlt]; exact List.getElem?_eq_getElem hlt
    · cases ho : am.getD (idx.getD k 0) none with
      | none => exact hval zero (by simp only [val, ho])
      | some j =>
        have hm : some j ∈ am := by
          rw [getD_eq_getElem _ _ hlt] at ho; rw [← ho]; exact List.getElem_mem hlt
        have hi := hina _ j hdst0 hm
        rw [List.set_set] at hi
        refine ⟨hi, ?_⟩
        obtain ⟨v, hv⟩ := Option.isSome_iff_exists.1 (Arr.get?_isSome hw hi)
        rw [hv]
        exact hval v (by simp only [val, ho, hv])

end Iv

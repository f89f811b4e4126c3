import Verif.Model.Shape
namespace Iv

theorem foldl_mul (l : List Nat) (a : Nat) : l.foldl (· * ·) a = a * size l := by
  induction l generalizing a with
  | nil => simp [size]
  | cons n ns ih => simp [List.foldl, ih, size, Nat.mul_assoc]

theorem prod_eq_size {s : List Nat} (h : s ≠ []) : prod s = size s := by
  cases s with
  | nil => exact absurd rfl h
  | cons n ns => simp [prod, foldl_mul, size]

theorem size_append (a b : List Nat) : size (a ++ b) = size a * size b := by
  induction a with
  | nil => simp [size]
  | cons n ns ih => simp [size, ih, Nat.mul_assoc]

theorem size_reverse (a : List Nat) : size a.reverse = size a := by
  induction a with
  | nil => rfl
  | cons n ns ih => simp [size_append, ih, size, Nat.mul_comm]

theorem InB.length_eq {s i : List Nat} (h : InB s i) : i.length = s.length := by
  induction s generalizing i with
  | nil => cases i <;> simp_all [InB]
  | cons n ns ih => cases i with
    | nil => simp [InB] at h
    | cons j js => simp [InB] at h; simp [ih h.2]

theorem InB.size_pos {s i : List Nat} (h : InB s i) : 0 < size s := by
  induction s generalizing i with
  | nil => simp [size]
  | cons n ns ih => cases i with
    | nil => simp [InB] at h
    | cons j js =>
      simp [InB] at h
      exact Nat.mul_pos (by omega) (ih h.2)

theorem flat_lt {s i : List Nat} (h : InB s i) : flat s i < size s := by
  induction s generalizing i with
  | nil => cases i <;> simp_all [InB, flat, size]
  | cons n ns ih => cases i with
    | nil => simp [InB] at h
    | cons j js =>
      simp [InB] at h
      have h2 := ih h.2
      simp only [flat, size]
      calc j * size ns + flat ns js < j * size ns + size ns := by omega
        _ = (j + 1) * size ns := by rw [Nat.succ_mul]
        _ ≤ n * size ns := Nat.mul_le_mul_right _ h.1

theorem unflat_flat {s i : List Nat} (h : InB s i) : unflat s (flat s i) = i := by
  induction s generalizing i with
  | nil => cases i <;> simp_all [InB, unflat]
  | cons n ns ih => cases i with
    | nil => simp [InB] at h
    | cons j js =>
      simp [InB] at h
      have h2 := ih h.2
      have hf := flat_lt h.2
      have hp : 0 < size ns := by omega
      simp only [flat, unflat]
      have e1 : (j * size ns + flat ns js) / size ns = j := by
        rw [Nat.mul_comm, Nat.mul_add_div hp, Nat.div_eq_of_lt hf, Nat.add_zero]
      have e2 : (j * size ns + flat ns js) % size ns = flat ns js := by
        rw [Nat.mul_comm, Nat.mul_add_mod, Nat.mod_eq_of_lt hf]
      rw [e1, e2, h2]

theorem unflat_inB {s : List Nat} {k : Nat} (h : k < size s) : InB s (unflat s k) := by
  induction s generalizing k with
  | nil => simp [unflat, InB]
  | cons n ns ih =>
    simp only [size] at h
    have hp : 0 < size ns := by
      rcases Nat.eq_zero_or_pos (size ns) with h0 | h0
      · rw [h0] at h; simp at h
      · exact h0
    refine ⟨?_, ih (Nat.mod_lt _ hp)⟩
    exact (Nat.div_lt_iff_lt_mul hp).2 h

theorem flat_unflat {s : List Nat} {k : Nat} (h : k < size s) : flat s (unflat s k) = k := by
  induction s generalizing k with
  | nil => simp [size] at h; simp [flat, h]
  | cons n ns ih =>
    simp only [size] at h
    have hp : 0 < size ns := by
      rcases Nat.eq_zero_or_pos (size ns) with h0 | h0
      · rw [h0] at h; simp at h
      · exact h0
    simp only [flat, unflat]
    rw [ih (Nat.mod_lt _ hp), Nat.mul_comm]
    exact Nat.div_add_mod _ _

@[simp] theorem unflat_length (s : List Nat) (k : Nat) : (unflat s k).length = s.length := by
  induction s generalizing k with
  | nil => rfl
  | cons n ns ih => simp [unflat, ih]

/-! Strides -/

theorem strides_cons (n : Nat) (ns : List Nat) : strides (n :: ns) = size ns :: strides ns := by
  induction ns generalizing n with
  | nil => simp [strides, size]
  | cons m s ih =>
    rw [strides, ih]
    simp [size, Nat.mul_comm]

@[simp] theorem strides_length (s : List Nat) : (strides s).length = s.length := by
  induction s with
  | nil => rfl
  | cons n ns ih => simp [strides_cons, ih]

theorem icIndex_foldl (l : List (Nat × Nat)) (a : Nat) :
    l.foldl (fun n p => n + p.1 * p.2) a = a + l.foldl (fun n p => n + p.1 * p.2) 0 := by
  induction l generalizing a with
  | nil => simp
  | cons p ps ih => simp only [List.foldl]; rw [ih, ih (0 + p.1 * p.2)]; omega

theorem icIndex_strides {s i : List Nat} (h : i.length = s.length) :
    icIndex (strides s) i = flat s i := by
  induction s generalizing i with
  | nil => cases i <;> simp_all [strides, icIndex, flat]
  | cons n ns ih => cases i with
    | nil => simp at h
    | cons j js =>
      rw [strides_cons]
      have := @ih js (by simpa using h)
      simp only [icIndex, List.zip_cons_cons, List.foldl] at *
      rw [icIndex_foldl, this]
      simp [flat, Nat.mul_comm]

theorem icIndexes_strides (s : List Nat) (k : Nat) : icIndexes (strides s) k = unflat s k := by
  induction s generalizing k with
  | nil => simp [strides, icIndexes, unflat]
  | cons n ns ih =>
    rw [strides_cons]
    simp only [icIndexes, unflat, ih]
    congr 1
    congr 1
    have := Nat.div_add_mod k (size ns)
    rw [Nat.mul_comm] at this
    omega

/-! Odometer -/

/-- Row-major position computed from reversed slices; used only in proofs. -/
def flatR : List Nat → List Nat → Nat
  | n :: ns, i :: is => i + n * flatR ns is
  | _, _ => 0

theorem flat_append {s i : List Nat} (h : i.length = s.length) (n j : Nat) :
    flat (s ++ [n]) (i ++ [j]) = flat s i * n + j := by
  induction s generalizing i with
  | nil =>
    have : i = [] := by simpa using h
    subst this; simp [flat, size]
  | cons m ms ih => cases i with
    | nil => simp at h
    | cons k ks =>
      simp only [List.cons_append, flat, size_append, size]
      rw [ih (by simpa using h), Nat.add_mul]
      simp [Nat.mul_assoc, Nat.add_assoc]

theorem flatR_eq {s i : List Nat} (h : i.length = s.length) :
    flat s.reverse i.reverse = flatR s i := by
  induction s generalizing i with
  | nil =>
    have : i = [] := by simpa using h
    subst this; simp [flat, flatR]
  | cons m ms ih => cases i with
    | nil => simp at h
    | cons k ks =>
      have hl : ks.length = ms.length := by simpa using h
      simp only [List.reverse_cons, flatR]
      rw [flat_append (by simpa using hl), ih hl, Nat.mul_comm, Nat.add_comm]

theorem InB_append {s i s' i' : List Nat} (h : i.length = s.length) :
    InB (s ++ s') (i ++ i') ↔ InB s i ∧ InB s' i' := by
  induction s generalizing i with
  | nil =>
    have : i = [] := by simpa using h
    subst this; simp [InB]
  | cons m ms ih => cases i with
    | nil => simp at h
    | cons k ks =>
      simp only [List.cons_append, InB]
      rw [ih (by simpa using h), and_assoc]

theorem InB_reverse {s i : List Nat} : InB s.reverse i.reverse ↔ InB s i := by
  induction s generalizing i with
  | nil =>
    constructor
    · intro h
      have := h.length_eq
      have : i = [] := by simpa using this
      subst this; trivial
    · intro h
      have := h.length_eq
      have : i = [] := by simpa using this
      subst this; trivial
  | cons m ms ih => cases i with
    | nil =>
      constructor
      · intro h; have := h.length_eq; simp at this
      · intro h; simp [InB] at h
    | cons k ks =>
      by_cases hl : ks.length = ms.length
      · simp only [List.reverse_cons]
        rw [InB_append (by simpa using hl), ih]
        simp [InB, and_comm]
      · constructor
        · intro h; have := h.length_eq; simp at this; omega
        · intro h; have := h.length_eq; simp at this; omega

@[simp] theorem incRev_length (i s : List Nat) : (incRev i s).length = i.length := by
  induction i generalizing s with
  | nil => simp [incRev]
  | cons k ks ih => cases s with
    | nil => simp [incRev]
    | cons n ns => simp only [incRev]; split <;> simp [ih]

theorem incRev_inB {s i : List Nat} (h : InB s i) : InB s (incRev i s) := by
  induction s generalizing i with
  | nil => cases i <;> simp_all [InB, incRev]
  | cons n ns ih => cases i with
    | nil => simp [InB] at h
    | cons k ks =>
      simp [InB] at h
      simp only [incRev]
      split
      · exact ⟨by omega, h.2⟩
      · exact ⟨by omega, ih h.2⟩

theorem flatR_incRev {s i : List Nat} (h : InB s i) :
    flatR s (incRev i s) = (flatR s i + 1) % size s ∧ flatR s i < size s := by
  induction s generalizing i with
  | nil => cases i <;> simp_all [InB, flatR, size]
  | cons n ns ih => cases i with
    | nil => simp [InB] at h
    | cons k ks =>
      simp [InB] at h
      obtain ⟨e, hlt⟩ := ih h.2
      have hb : n * flatR ns ks + n ≤ n * size ns := by
        rw [← Nat.mul_succ]; exact Nat.mul_le_mul_left _ hlt
      simp only [incRev, flatR, size]
      split
      · simp only [flatR]
        refine ⟨?_, by omega⟩
        rw [Nat.mod_eq_of_lt (by omega)]; omega
      · simp only [flatR]
        refine ⟨?_, by omega⟩
        rw [e]
        have : k + n * flatR ns ks + 1 = n * (flatR ns ks + 1) := by
          rw [Nat.mul_succ]; omega
        rw [this, Nat.mul_mod_mul_left]; simp

@[simp] theorem incArrayIndex_length (i s : List Nat) : (incArrayIndex i s).length = i.length := by
  simp [incArrayIndex]

theorem incArrayIndex_inB {s i : List Nat} (h : InB s i) : InB s (incArrayIndex i s) := by
  have := incRev_inB (InB_reverse.2 h)
  rw [← InB_reverse] at this
  simpa [incArrayIndex] using this

theorem flat_inc {s i : List Nat} (h : InB s i) :
    flat s (incArrayIndex i s) = (flat s i + 1) % size s := by
  have h' := InB_reverse.2 h
  have := (flatR_incRev h').1
  rw [← flatR_eq (by simpa using h.length_eq), ← flatR_eq (by simpa using h.length_eq)] at this
  simpa [incArrayIndex, size_reverse] using this

theorem incArrayIndex_unflat {s : List Nat} {k : Nat} (h : k < size s) :
    incArrayIndex (unflat s k) s = unflat s ((k + 1) % size s) := by
  have hb := unflat_inB h
  have h1 := flat_inc hb
  rw [flat_unflat h] at h1
  rw [← h1, unflat_flat (incArrayIndex_inB hb)]

theorem unflat_zero (s : List Nat) : unflat s 0 = List.replicate s.length 0 := by
  induction s with
  | nil => rfl
  | cons n ns ih => simp [unflat, ih, List.replicate_succ]

theorem incTimes_unflat {s : List Nat} {k : Nat} (h : k < size s) (m : Nat) :
    incTimes s m (unflat s k) = unflat s ((k + m) % size s) := by
  induction m generalizing k with
  | zero => simp [incTimes, Nat.mod_eq_of_lt h]
  | succ m ih =>
    rw [incTimes, incArrayIndex_unflat h, ih (Nat.mod_lt _ (by omega))]
    congr 1
    rw [Nat.mod_add_mod]; congr 1; omega

/-! Loops -/

theorem odoLoop_aux {β} {s : List Nat} {body : Nat → List Nat → Res β} {g : Nat → β}
    (n i : Nat) (hi : i + n ≤ size s)
    (hb : ∀ k, i ≤ k → k < i + n → body k (unflat s k) = .ok (g k)) :
    odoLoop s body n i (unflat s i) = .ok ((List.range' i n).map g) := by
  induction n generalizing i with
  | zero => simp [odoLoop]
  | succ n ih =>
    rw [odoLoop, hb i (by omega) (by omega)]
    rcases Nat.lt_or_ge (i + 1) (size s) with hlt | hge
    · rw [incArrayIndex_unflat (by omega), Nat.mod_eq_of_lt hlt,
        ih (i + 1) (by omega) (fun k h1 h2 => hb k (by omega) (by omega))]
      simp [List.range'_succ, bind, Except.bind, pure, Except.pure]
    · have : n = 0 := by omega
      subst this
      simp [odoLoop, bind, Except.bind, pure, Except.pure, List.range']

/-- The odometer loop started at zero calls its body with the index vector of each offset. -/
theorem odoLoop_ok {β} {s : List Nat} {body : Nat → List Nat → Res β} {g : Nat → β}
    (n : Nat) (hi : n ≤ size s)
    (hb : ∀ k, k < n → body k (unflat s k) = .ok (g k)) :
    odoLoop s body n 0 (List.replicate s.length 0) = .ok ((List.range n).map g) := by
  rw [← unflat_zero, List.range_eq_range']
  exact odoLoop_aux n 0 (by omega) (fun k _ h => hb k (by omega))

theorem forLoop_aux {β} {body : Nat → Res β} {g : Nat → β} (n i : Nat)
    (hb : ∀ k, i ≤ k → k < i + n → body k = .ok (g k)) :
    forLoop body n i = .ok ((List.range' i n).map g) := by
  induction n generalizing i with
  | zero => simp [forLoop]
  | succ n ih =>
    rw [forLoop, hb i (by omega) (by omega), ih (i + 1) (fun k h1 h2 => hb k (by omega) (by omega))]
    simp [List.range'_succ, bind, Except.bind, pure, Except.pure]

theorem forLoop_ok {β} {body : Nat → Res β} {g : Nat → β} (n : Nat)
    (hb : ∀ k, k < n → body k = .ok (g k)) :
    forLoop body n 0 = .ok ((List.range n).map g) := by
  rw [List.range_eq_range']
  exact forLoop_aux n 0 (fun k _ h => hb k (by omega))

/-- If the body succeeds at every position, the loop succeeds and collects its results. -/
theorem odoLoop_ex {β} {s : List Nat} {body : Nat → List Nat → Res β}
    (n : Nat) (hi : n ≤ size s) (hb : ∀ k, k < n → ∃ v, body k (unflat s k) = .ok v) :
    ∃ d, odoLoop s body n 0 (List.replicate s.length 0) = .ok d ∧ d.length = n ∧
      ∀ k, k < n → ∃ v, body k (unflat s k) = .ok v ∧ d[k]? = some v := by
  rcases Nat.eq_zero_or_pos n with h0 | hpos
  · subst h0; exact ⟨[], rfl, rfl, by intro k hk; omega⟩
  · obtain ⟨v0, hv0⟩ := hb 0 hpos
    let g : Nat → β := fun k => match body k (unflat s k) with
      | .ok v => v
      | .error _ => v0
    have hg : ∀ k, k < n → body k (unflat s k) = .ok (g k) := by
      intro k hk
      obtain ⟨v, hv⟩ := hb k hk
      simp only [g, hv]
    refine ⟨(List.range n).map g, odoLoop_ok n hi hg, by simp, ?_⟩
    intro k hk
    exact ⟨g k, hg k hk, by simp [hk]⟩

theorem forLoop_ex {β} {body : Nat → Res β}
    (n : Nat) (hb : ∀ k, k < n → ∃ v, body k = .ok v) :
    ∃ d, forLoop body n 0 = .ok d ∧ d.length = n ∧
      ∀ k, k < n → ∃ v, body k = .ok v ∧ d[k]? = some v := by
  rcases Nat.eq_zero_or_pos n with h0 | hpos
  · subst h0; exact ⟨[], rfl, rfl, by intro k hk; omega⟩
  · obtain ⟨v0, hv0⟩ := hb 0 hpos
    let g : Nat → β := fun k => match body k with
      | .ok v => v
      | .error _ => v0
    have hg : ∀ k, k < n → body k = .ok (g k) := by
      intro k hk
      obtain ⟨v, hv⟩ := hb k hk
      simp only [g, hv]
    refine ⟨(List.range n).map g, forLoop_ok n hg, by simp, ?_⟩
    intro k hk
    exact ⟨g k, hg k hk, by simp [hk]⟩

/-- The result of a successful odometer loop over all elements of `s`, as an array, has at each
index vector the value the body computed there. -/
theorem odoLoop_arr {β} {s : List Nat} {body : Nat → List Nat → Res β}
    (hb : ∀ idx, InB s idx → ∃ v, body (flat s idx) idx = .ok v) :
    ∃ r : Arr β, odoLoop s body (size s) 0 (List.replicate s.length 0) = .ok r.data ∧
      r.shape = s ∧ r.WF ∧ ∀ idx, InB s idx → ∃ v, body (flat s idx) idx = .ok v ∧ r.get? idx = some v := by
  obtain ⟨d, h1, h2, h3⟩ := odoLoop_ex (s := s) (body := body) (size s) (Nat.le_refl _) (by
    intro k hk
    have := hb _ (unflat_inB hk)
    rwa [flat_unflat hk] at this)
  refine ⟨⟨s, d⟩, h1, rfl, h2, ?_⟩
  intro idx hidx
  obtain ⟨v, hv, hd⟩ := h3 _ (flat_lt hidx)
  rw [unflat_flat hidx] at hv
  refine ⟨v, hv, ?_⟩
  simp [Arr.get?, hidx, hd]

/-! Arrays -/

theorem sliceAt_ok {α} {l : List α} {i : Nat} (h : i < l.length) : sliceAt l i = .ok l[i] := by
  simp [sliceAt, h]

theorem sliceAt_eq_ok {α} {l : List α} {i : Nat} {x : α} : sliceAt l i = .ok x ↔ l[i]? = some x := by
  unfold sliceAt; cases l[i]? <;> simp

theorem Arr.get?_of_inB {α} {a : Arr α} {i : List Nat} (h : InB a.shape i) :
    a.get? i = a.data[flat a.shape i]? := by
  simp [Arr.get?, h]

theorem Arr.get?_isSome {α} {a : Arr α} (hw : a.WF) {i : List Nat} (h : InB a.shape i) :
    (a.get? i).isSome := by
  rw [Arr.get?_of_inB h]
  have := flat_lt h
  unfold Arr.WF at hw
  simp [hw, this]

/-- Two well-formed arrays of equal shape and equal elements are equal. -/
theorem Arr.ext_get {α} {a b : Arr α} (ha : a.WF) (hb : b.WF) (hs : a.shape = b.shape)
    (h : ∀ i, InB a.shape i → a.get? i = b.get? i) : a = b := by
  cases a with
  | mk s d => cases b with
    | mk s' d' =>
      simp only at hs; subst hs
      congr 1
      simp only [Arr.WF] at ha hb
      apply List.ext_getElem?
      intro k
      rcases Nat.lt_or_ge k (size s) with hk | hk
      · have hin := unflat_inB hk
        have := h _ hin
        rw [Arr.get?_of_inB (by exact hin), Arr.get?_of_inB (by exact hin)] at this
        simpa [flat_unflat hk] using this
      · rw [List.getElem?_eq_none (by omega), List.getElem?_eq_none (by omega)]

/-- Element of a tabulated array. -/
theorem Arr.get?_tab {α} {s : List Nat} {g : Nat → α} {i : List Nat} (h : InB s i) :
    (Arr.mk s ((List.range (size s)).map g)).get? i = some (g (flat s i)) := by
  rw [Arr.get?_of_inB (by exact h)]
  have := flat_lt h
  simp [this]

theorem Arr.WF_tab {α} {s : List Nat} {g : Nat → α} :
    (Arr.mk s ((List.range (size s)).map g)).WF := by
  simp [Arr.WF]

end Iv

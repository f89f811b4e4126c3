import Verif.Model.Catenate
import Verif.Lemmas.Rotate
import Verif.Lemmas.Reshape
namespace Iv

theorem getD_ext {l m : List Nat} (hl : l.length = m.length)
    (h : ∀ j, j < l.length → l.getD j 0 = m.getD j 0) : l = m := by
  apply List.ext_getElem hl
  intro i h1 h2
  have := h i h1
  simpa [List.getD, h1, h2] using this

theorem catShape_ex (x : Nat) (sr ls : List Nat) (i : Nat) (hl : ls.length + i = sr.length)
    (hag : ∀ j, j < ls.length → j + i ≠ x → ls.getD j 0 = sr.getD (j + i) 0) :
    ∃ s, catShape x sr ls i = .ok s ∧ s.length = ls.length ∧
      ∀ j, j < ls.length → s.getD j 0 = if j + i = x then ls.getD j 0 + sr.getD (j + i) 0 else ls.getD j 0 := by
  induction ls generalizing i with
  | nil => exact ⟨[], rfl, rfl, by intro j h; simp at h⟩
  | cons l ls ih =>
    simp only [List.length_cons] at hl
    obtain ⟨s, h1, h2, h3⟩ := ih (i + 1) (by omega) (by
      intro j hj hjx
      have := hag (j + 1) (by simp; omega) (by omega)
      have e : j + 1 + i = j + (i + 1) := by omega
      rw [e] at this
      simpa using this)
    have hi : i < sr.length := by omega
    have hsl : sliceAt sr i = .ok (sr.getD i 0) := by
      rw [sliceAt_ok hi]; simp [List.getD, hi]
    have hstep : ∀ j, j < ls.length → s.getD j 0 = if j + 1 + i = x then ls.getD j 0 + sr.getD (j + 1 + i) 0 else ls.getD j 0 := by
      intro j hj
      have e : j + 1 + i = j + (i + 1) := by omega
      rw [e]; exact h3 j hj
    unfold catShape
    rw [hsl]
    simp only [bind, Except.bind, h1, pure, Except.pure]
    by_cases hx : i = x
    · rw [if_pos hx]
      refine ⟨_, rfl, by simp [h2], ?_⟩
      intro j hj
      cases j with
      | zero => simp [hx]
      | succ j =>
        simp only [List.length_cons] at hj
        have := hstep j (by omega)
        simpa using this
    · rw [if_neg hx]
      have hlr : l = sr.getD i 0 := by
        have := hag 0 (by simp) (by omega)
        simpa using this
      rw [if_neg (by simpa using hlr)]
      refine ⟨_, rfl, by simp [h2], ?_⟩
      intro j hj
      cases j with
      | zero => simp [hx]
      | succ j =>
        simp only [List.length_cons] at hj
        have := hstep j (by omega)
        simpa using this

theorem catShape_ok {x : Nat} {sl sr : List Nat} (hl : sl.length = sr.length) 
    (hag : ∀ j, j < sl.length → j ≠ x → sl.getD j 0 = sr.getD j 0) :
    catShape x sr sl 0 = .ok (sl.set x (sl.getD x 0 + sr.getD x 0)) := by
  obtain ⟨s, h1, h2, h3⟩ := catShape_ex x sr sl 0 (by omega) (by simpa using hag)
  rw [h1]
  congr 1
  apply getD_ext (by simpa using h2)
  intro j hj
  rw [h3 j (by omega), getD_set]
  by_cases h : j = x
  · subst h
    rw [if_pos (by omega), if_pos ⟨rfl, by omega⟩]; simp
  · rw [if_neg (by omega), if_neg (by omega)]

theorem catShape_err (x : Nat) (sr ls : List Nat) (i : Nat) (hl : ls.length + i ≤ sr.length)
    (hdis : ∃ j, j < ls.length ∧ j + i ≠ x ∧ ls.getD j 0 ≠ sr.getD (j + i) 0) :
    catShape x sr ls i = .error .err := by
  induction ls generalizing i with
  | nil => obtain ⟨j, hj, _⟩ := hdis; simp at hj
  | cons l ls ih =>
    simp only [List.length_cons] at hl
    have hi : i < sr.length := by omega
    have hsl : sliceAt sr i = .ok (sr.getD i 0) := by
      rw [sliceAt_ok hi]; simp [List.getD, hi]
    unfold catShape
    rw [hsl]
    simp only [bind, Except.bind, pure, Except.pure]
    obtain ⟨j, hj, hjx, hne⟩ := hdis
    cases j with
    | zero =>
      rw [if_neg (by omega), if_pos (by simpa using hne)]
    | succ j =>
      have hr := ih (i + 1) (by omega) ⟨j, by simpa using hj, by omega, by
        have e : j + (i + 1) = j + 1 + i := by omega
        rw [e]; simpa using hne⟩
      rw [hr]
      split
      · rfl
      · split <;> rfl

/-- more axes on the left than on the right: reading the right shape fails -/
theorem catShape_long (x : Nat) (sr ls : List Nat) (i : Nat) (hl : sr.length < ls.length + i) (hi : i ≤ sr.length) :
    ∃ e, catShape x sr ls i = .error e := by
  induction ls generalizing i with
  | nil => simp at hl; omega
  | cons l ls ih =>
    unfold catShape
    rcases Nat.lt_or_ge i sr.length with h | h
    · rw [sliceAt_ok h]
      obtain ⟨e, he⟩ := ih (i + 1) (by simp at hl; omega) (by omega)
      simp only [bind, Except.bind, he]
      split
      · exact ⟨_, rfl⟩
      · split <;> exact ⟨_, rfl⟩
    · refine ⟨.panic, ?_⟩
      have : sliceAt sr i = .error .panic := by simp [sliceAt, h]
      rw [this]; rfl

theorem catCore_spec {α} (x : Nat) (al ar : Arr α) (hwl : al.WF) (hwr : ar.WF)
    (hl : al.shape.length = ar.shape.length) (hx : x < al.shape.length)
    (hag : ∀ j, j < al.shape.length → j ≠ x → al.shape.getD j 0 = ar.shape.getD j 0) :
    ∃ r, catCore x al ar = .ok r ∧ r.WF ∧
      r.shape = al.shape.set x (al.shape.getD x 0 + ar.shape.getD x 0) ∧
      ∀ idx, InB r.shape idx →
        r.get? idx = if idx.getD x 0 < al.shape.getD x 0 then al.get? idx
          else ar.get? (idx.set x (idx.getD x 0 - al.shape.getD x 0)) := by
  have hnl : al.shape ≠ [] := by intro h; rw [h] at hx; simp at hx
  have hnr : ar.shape ≠ [] := by intro h; rw [h] at hl; simp at hl; exact hnl hl
  let ns := al.shape.set x (al.shape.getD x 0 + ar.shape.getD x 0)
  have hns : ns ≠ [] := by simp [ns, hnl]
  have hnsl : ns.length = al.shape.length := by simp [ns]
  have hnsx : ns.getD x 0 = al.shape.getD x 0 + ar.shape.getD x 0 := by
    simp only [ns]; rw [getD_set, if_pos ⟨rfl, hx⟩]
  have hnsj : ∀ j, j ≠ x → ns.getD j 0 = al.shape.getD j 0 := by
    intro j hj; simp only [ns]; rw [getD_set, if_neg (by omega)]
  -- membership
  have hinl : ∀ idx, InB ns idx → idx.getD x 0 < al.shape.getD x 0 → InB al.shape idx := by
    intro idx h hlt
    rw [InB_iff] at h ⊢
    refine ⟨by omega, ?_⟩
    intro j hj
    by_cases e : j = x
    · subst e; exact hlt
    · have := h.2 j (by omega); rw [hnsj j e] at this; exact this
  have hinr : ∀ idx, InB ns idx → ¬ idx.getD x 0 < al.shape.getD x 0 →
      InB ar.shape (idx.set x (idx.getD x 0 - al.shape.getD x 0)) := by
    intro idx h hlt
    rw [InB_iff] at h ⊢
    refine ⟨by simp; omega, ?_⟩
    intro j hj
    rw [getD_set]
    by_cases e : j = x
    · subst e
      rw [if_pos ⟨rfl, by omega⟩]
      have := h.2 j (by omega)
      rw [hnsx] at this; omega
    · rw [if_neg (by omega)]
      have := h.2 j (by omega)
      rw [hnsj j e, hag j (by omega) e] at this; exact this
  have hbody : ∀ idx, InB ns idx → ∃ v, (fun (_ : Nat) dst =>
    if al.shape.getD x 0 ≤ dst.getD x 0 then
      sliceAt ar.data (icIndex (strides ar.shape) (dst.set x (dst.getD x 0 - al.shape.getD x 0)))
    else
      sliceAt al.data (icIndex (strides al.shape) dst)) (flat ns idx) idx = .ok v ∧
      (if idx.getD x 0 < al.shape.getD x 0 then al.get? idx
          else ar.get? (idx.set x (idx.getD x 0 - al.shape.getD x 0))) = some v := by
    intro idx h
    simp only
    by_cases hc : idx.getD x 0 < al.shape.getD x 0
    · rw [if_neg (by omega), if_pos hc]
      have hin := hinl idx h hc
      rw [icIndex_strides hin.length_eq, Arr.get?_of_inB hin]
      have := flat_lt hin
      rw [← hwl] at this
      exact ⟨_, sliceAt_ok this, List.getElem?_eq_getElem this⟩
    · rw [if_pos (by omega), if_neg hc]
      have hin := hinr idx h hc
      rw [icIndex_strides hin.length_eq, Arr.get?_of_inB hin]
      have := flat_lt hin
      rw [← hwr] at this
      exact ⟨_, sliceAt_ok this, List.getElem?_eq_getElem this⟩
  obtain ⟨r, h1, h2, h3, h4⟩ := odo_spec (s := ns) (body := (fun (_ : Nat) dst =>
    if al.shape.getD x 0 ≤ dst.getD x 0 then
      sliceAt ar.data (icIndex (strides ar.shape) (dst.set x (dst.getD x 0 - al.shape.getD x 0)))
    else
      sliceAt al.data (icIndex (strides al.shape) dst))) (g := fun idx =>
      (if idx.getD x 0 < al.shape.getD x 0 then al.get? idx
          else ar.get? (idx.set x (idx.getD x 0 - al.shape.getD x 0)))) hbody
  refine ⟨r, ?_, h3, h2, ?_⟩
  · unfold catCore
    have hsx : sliceAt al.shape x = .ok (al.shape.getD x 0) := by
      rw [sliceAt_ok hx]; simp [List.getD, hx]
    rw [catShape_ok hl hag, hsx, newIdxConverter_ok hnl, newIdxConverter_ok hnr]
    simp only [bind, Except.bind]
    rw [show prod (al.shape.set x (al.shape.getD x 0 + ar.shape.getD x 0)) = size ns from prod_eq_size hns]
    rw [show al.shape.set x (al.shape.getD x 0 + ar.shape.getD x 0) = ns from rfl, h1]
    simp only [pure, Except.pure, ← h2]
  · intro idx hidx
    rw [h2] at hidx
    exact h4 idx hidx

/-! inserting an axis -/

theorem insertIdx_take_drop {β} (l : List β) (x : Nat) (v : β) (h : x ≤ l.length) :
    l.insertIdx x v = l.take x ++ v :: l.drop x := by
  induction l generalizing x with
  | nil => simp at h; subst h; rfl
  | cons a l ih =>
    cases x with
    | zero => rfl
    | succ x => simp at h; simp [ih x h]

theorem size_insertIdx (s : List Nat) (x n : Nat) (h : x ≤ s.length) : size (s.insertIdx x n) = n * size s := by
  induction s generalizing x with
  | nil => simp at h; subst h; simp [size]
  | cons a l ih =>
    cases x with
    | zero => simp [size]
    | succ x =>
      simp at h
      simp only [List.insertIdx_succ_cons, size, ih x h]
      rw [← Nat.mul_assoc, ← Nat.mul_assoc, Nat.mul_comm a n]

theorem flat_insert1 (s idx : List Nat) (x : Nat) (h : x ≤ s.length) (hi : InB (s.insertIdx x 1) idx) :
    flat (s.insertIdx x 1) idx = flat s (idx.eraseIdx x) := by
  induction s generalizing x idx with
  | nil =>
    simp at h; subst h
    match idx, hi with
    | [i], hi => simp [InB] at hi; subst hi; simp [flat, size]
  | cons a l ih =>
    cases x with
    | zero =>
      match idx, hi with
      | i :: is, hi =>
        simp only [List.insertIdx_zero, InB] at hi
        have : i = 0 := by omega
        subst this
        simp [flat]
    | succ x =>
      simp at h
      match idx, hi with
      | i :: is, hi =>
        simp only [List.insertIdx_succ_cons, InB] at hi
        simp only [List.insertIdx_succ_cons, flat, List.eraseIdx_cons_succ]
        rw [ih is x h hi.2, size_insertIdx _ _ _ h, Nat.one_mul]

theorem getD_insertIdx (l : List Nat) (x v j : Nat) (h : x ≤ l.length) :
    (l.insertIdx x v).getD j 0 = if j < x then l.getD j 0 else if j = x then v else l.getD (j - 1) 0 := by
  simp only [List.getD, List.getElem?_insertIdx]
  split
  · rfl
  · split
    · rename_i h2; subst h2; rw [if_pos h]; rfl
    · rfl

theorem InB_erase_of_insert {s idx : List Nat} {x n : Nat} (h : x ≤ s.length) (hi : InB (s.insertIdx x n) idx) :
    InB s (idx.eraseIdx x) := by
  have := InB_eraseIdx hi x
  rwa [List.eraseIdx_insertIdx_self] at this

theorem reshapeTo_insert1 {α} (k : Kind) (a : Arr α) (hw : a.WF) (hne : a.data ≠ []) (x : Nat) (hx : x ≤ a.shape.length) :
    ∃ b, insert1 a.shape x = .ok (a.shape.insertIdx x 1) ∧ reshapeTo k a (a.shape.insertIdx x 1) = .ok b ∧ b.WF ∧
      b.shape = a.shape.insertIdx x 1 ∧ b.data = a.data ∧
      ∀ idx, InB b.shape idx → InB a.shape (idx.eraseIdx x) ∧ b.get? idx = a.get? (idx.eraseIdx x) := by
  have hins : a.shape.insertIdx x 1 ≠ [] := by
    intro h
    have := congrArg List.length h
    rw [List.length_insertIdx] at this; simp [hx] at this
  obtain ⟨d, h1, h2, h3⟩ := reshapeArr_ok k a.data hne _ hins
  have hd : d = a.data := by
    have hsz : size (a.shape.insertIdx x 1) = a.data.length := by
      rw [size_insertIdx _ _ _ hx, Nat.one_mul]; exact hw.symm
    apply List.ext_getElem? 
    intro i
    rcases Nat.lt_or_ge i a.data.length with hi | hi
    · rw [h3 i (by omega), Nat.mod_eq_of_lt hi]
    · rw [List.getElem?_eq_none (by omega), List.getElem?_eq_none (by omega)]
  refine ⟨⟨a.shape.insertIdx x 1, d⟩, ?_, ?_, h2, rfl, hd, ?_⟩
  · unfold insert1; rw [if_pos hx, insertIdx_take_drop _ _ _ hx]
  · unfold reshapeTo; rw [h1]; rfl
  · intro idx hidx
    have hidx' : InB (a.shape.insertIdx x 1) idx := hidx
    have he := InB_erase_of_insert hx hidx'
    refine ⟨he, ?_⟩
    rw [Arr.get?_of_inB (by exact hidx'), Arr.get?_of_inB he]
    simp only
    rw [flat_insert1 _ _ _ hx hidx', hd]

end Iv

import Verif.Model.Replicate
import Verif.Lemmas.AllIdx
import Verif.Lemmas.Reshape
namespace Iv

theorem getD_eq_getElem {β} (l : List β) (d : β) {k : Nat} (h : k < l.length) : l.getD k d = l[k] := by
  simp [List.getD, h]

theorem sliceAt_getD {β} (l : List β) (d : β) {k : Nat} (h : k < l.length) : sliceAt l k = .ok (l.getD k d) := by
  rw [sliceAt_ok h, getD_eq_getElem l d h]

theorem size_dvd_of_set (s : List Nat) (k n : Nat) (hk : k < s.length) :
    size (s.set k n) = n * size (s.set k 1) := by
  induction s generalizing k with
  | nil => simp at hk
  | cons m ms ih =>
    cases k with
    | zero => simp [size]
    | succ k =>
      simp only [List.length_cons] at hk
      simp only [List.set_cons_succ, size, ih k (by omega)]
      rw [← Nat.mul_assoc, ← Nat.mul_assoc, Nat.mul_comm m n]

/-! axis map -/

theorem axisMap_mem {L : List Int} {k : Nat} {o : Option Nat} (h : o ∈ axisMap L k) (j : Nat) (hj : o = some j) :
    k ≤ j ∧ j < k + L.length := by
  induction L generalizing k with
  | nil => simp [axisMap] at h
  | cons n ns ih =>
    simp only [axisMap, List.mem_append] at h
    rcases h with h | h
    · by_cases h1 : n > 0
      · rw [if_pos h1] at h
        have := List.eq_of_mem_replicate h
        rw [hj] at this; cases this; simp
      · rw [if_neg h1] at h
        by_cases h2 : n < 0
        · rw [if_pos h2] at h
          have := List.eq_of_mem_replicate h
          rw [hj] at this; cases this
        · rw [if_neg h2] at h; simp at h
    · have := ih h
      simp; omega

/-- positions marked by a boolean vector -/
def keepL : List Int → Nat → List Nat
  | [], _ => []
  | n :: ns, k => if n = 1 then k :: keepL ns (k + 1) else keepL ns (k + 1)

theorem axisMap_bool {L : List Int} (h : ∀ n ∈ L, 0 ≤ n ∧ n ≤ 1) (k : Nat) :
    axisMap L k = (keepL L k).map some := by
  induction L generalizing k with
  | nil => rfl
  | cons n ns ih =>
    have hn := h n (by simp)
    have ih' := ih (fun m hm => h m (by simp [hm])) (k + 1)
    simp only [axisMap, keepL, ih']
    by_cases h1 : n = 1
    · subst h1; simp
    · have : n = 0 := by omega
      subst this; simp

theorem keepL_filter (L : List Int) (k : Nat) :
    keepL L k = (List.range' k L.length).filter (fun j => L.getD (j - k) 0 == 1) := by
  induction L generalizing k with
  | nil => rfl
  | cons n ns ih =>
    simp only [keepL, List.length_cons, List.range'_succ, List.filter_cons, Nat.sub_self, List.getD_cons_zero]
    have : (List.range' (k + 1) ns.length).filter (fun j => (n :: ns).getD (j - k) 0 == 1) = keepL ns (k + 1) := by
      rw [ih]
      apply List.filter_congr
      intro j hj
      rw [List.mem_range'_1] at hj
      have e : j - k = (j - (k + 1)) + 1 := by omega
      rw [e]; simp
    rw [this]
    by_cases h : n = 1 <;> simp [h]

theorem foldl_add_int (L : List Int) (a : Int) : L.foldl (· + ·) a = a + L.foldl (· + ·) 0 := by
  induction L generalizing a with
  | nil => simp
  | cons n ns ih => simp only [List.foldl_cons]; rw [ih, ih (0 + n)]; omega

theorem keepL_length {L : List Int} (h : ∀ n ∈ L, 0 ≤ n ∧ n ≤ 1) (k : Nat) :
    ((keepL L k).length : Int) = L.foldl (· + ·) 0 := by
  induction L generalizing k with
  | nil => rfl
  | cons n ns ih =>
    have hn := h n (by simp)
    have ih' := ih (fun m hm => h m (by simp [hm])) (k + 1)
    simp only [keepL, List.foldl_cons]
    rw [foldl_add_int, ← ih']
    by_cases h1 : n = 1
    · subst h1; simp; omega
    · have : n = 0 := by omega
      subst this; simp

/-! compress -/

theorem compressLoop_ok {α} (L : List Int) (a : Arr α) (k : Nat) (hw : a.WF) (hL : L.length = a.shape.getD k 0)
    (hk : k < a.shape.length) (n i : Nat) (hni : i + n = size a.shape) :
    ∃ d, compressLoop L a k n i (unflat a.shape i) = .ok d ∧
      d.map some = ((List.range' i n).filter (fun p => L.getD ((unflat a.shape p).getD k 0) 0 == 1)).map (fun p => a.data[p]?) := by
  induction n generalizing i with
  | zero => exact ⟨[], rfl, rfl⟩
  | succ n ih =>
    have hi : i < size a.shape := by omega
    have hin := unflat_inB hi
    have hlt := hin.getD_lt hk
    have hs : sliceAt L ((unflat a.shape i).getD k 0) = .ok (L.getD ((unflat a.shape i).getD k 0) 0) :=
      sliceAt_getD _ _ (by omega)
    have hd : i < a.data.length := by rw [hw]; exact hi
    have hinc : ∃ d, compressLoop L a k n (i + 1) (incArrayIndex (unflat a.shape i) a.shape) = .ok d ∧
      d.map some = ((List.range' (i + 1) n).filter (fun p => L.getD ((unflat a.shape p).getD k 0) 0 == 1)).map (fun p => a.data[p]?) := by
      rcases Nat.eq_zero_or_pos n with h0 | hpos
      · subst h0; exact ⟨[], rfl, rfl⟩
      · have := incArrayIndex_unflat hi
        rw [this, Nat.mod_eq_of_lt (by omega)]
        exact ih (i + 1) (by omega)
    obtain ⟨d, h1, h2⟩ := hinc
    unfold compressLoop
    rw [hs]
    simp only [bind, Except.bind, h1, sliceAt_ok hd, pure, Except.pure]
    rw [List.range'_succ, List.filter_cons]
    by_cases hc : L.getD ((unflat a.shape i).getD k 0) 0 = 1
    · rw [if_pos hc, if_pos (by simp only [beq_iff_eq]; exact hc)]
      refine ⟨_, rfl, ?_⟩
      simp only [List.map_cons, h2, List.getElem?_eq_getElem hd]
    · rw [if_neg hc, if_neg (by simp only [beq_iff_eq]; exact hc)]
      exact ⟨d, rfl, h2⟩

theorem compress_spec {α} (L : List Int) (a : Arr α) (k : Nat) (hw : a.WF)
    (hL : L.length = a.shape.getD k 0) (hk : k < a.shape.length) (hb : ∀ n ∈ L, 0 ≤ n ∧ n ≤ 1) :
    ∃ r, compress L a k = .ok r ∧ r.WF ∧ r.shape = a.shape.set k (axisMap L 0).length ∧
      ∀ idx, InB r.shape idx → ∃ j, (axisMap L 0)[idx.getD k 0]? = some (some j) ∧
        InB a.shape (idx.set k j) ∧ r.get? idx = a.get? (idx.set k j) := by
  obtain ⟨d, h1, h2⟩ := compressLoop_ok L a k hw hL hk (size a.shape) 0 (by omega)
  have hkeep : keepL L 0 = (List.range (a.shape.getD k 0)).filter (fun j => L.getD j 0 == 1) := by
    rw [keepL_filter, hL, List.range_eq_range']
    rfl
  let keep := keepL L 0
  have ham : axisMap L 0 = keep.map some := axisMap_bool hb 0
  have hcount : (L.foldl (· + ·) 0).toNat = (axisMap L 0).length := by
    rw [ham, ← keepL_length hb 0]; simp [keep]
  let s' := a.shape.set k (axisMap L 0).length
  let Q := (List.range (size a.shape)).filter (fun p => L.getD ((unflat a.shape p).getD k 0) 0 == 1)
  have hQ : Q.map (unflat a.shape) = (allIdx s').map (fun idx => idx.set k (keep.getD (idx.getD k 0) 0)) := by
    have := allIdx_filter a.shape k hk (fun j => L.getD j 0 == 1)
    rw [← hkeep] at this
    have e : (axisMap L 0).length = (keepL L 0).length := by rw [ham]; simp [keep]
    simp only [s', e, keep]
    rw [← this, allIdx_eq, List.filter_map]
    rfl
  rw [← List.range_eq_range'] at h2
  have hdlen : d.length = size s' := by
    have := congrArg List.length h2
    simp only [List.length_map] at this
    rw [this]
    have := congrArg List.length hQ
    simp only [List.length_map] at this
    rw [allIdx_length] at this
    exact this
  refine ⟨⟨s', d⟩, ?_, hdlen, rfl, ?_⟩
  · unfold compress
    rw [unflat_zero] at h1
    have : a.data.length = size a.shape := hw
    rw [this, h1]
    simp only [bind, Except.bind, pure, Except.pure, hcount, s']
  · intro idx hidx
    have hidx' : InB s' idx := hidx
    have hik : idx.getD k 0 < keep.length := by
      have := hidx'.getD_lt (k := k) (by simpa [s'] using hk)
      simp only [s'] at this
      rw [getD_set, if_pos ⟨rfl, hk⟩, ham] at this
      simpa using this
    refine ⟨keep.getD (idx.getD k 0) 0, ?_, ?_, ?_⟩
    · rw [ham, List.getElem?_map, List.getElem?_eq_getElem hik, getD_eq_getElem _ _ hik]; rfl
    all_goals
      have hp := flat_lt hidx'
      have hq : (Q.map (unflat a.shape))[flat s' idx]? = some (idx.set k (keep.getD (idx.getD k 0) 0)) := by
        rw [hQ, List.getElem?_map, allIdx_getElem? hidx']; rfl
      rw [List.getElem?_map] at hq
      obtain ⟨q, hq1, hq2⟩ := Option.map_eq_some_iff.1 hq
      have hqm : q ∈ Q := List.mem_of_getElem? hq1
      have hqlt : q < size a.shape := List.mem_range.1 (List.mem_filter.1 hqm).1
    · rw [← hq2]; exact unflat_inB hqlt
    · rw [← hq2, Arr.get?_of_inB (by exact hidx'), Arr.get?_of_inB (unflat_inB hqlt), flat_unflat hqlt]
      have := congrArg (fun l => l[flat s' idx]?) h2
      simp only [List.getElem?_map] at this
      rw [show ((List.range (size a.shape)).filter (fun p => L.getD ((unflat a.shape p).getD k 0) 0 == 1))[flat s' idx]? = some q from hq1] at this
      simp only [Option.map_some] at this
      show d[flat s' idx]? = a.data[q]?
      have hpd : flat s' idx < d.length := by rw [hdlen]; exact hp
      rw [List.getElem?_eq_getElem hpd] at this ⊢
      simpa using this

theorem commonReplExp_ok {α} (L : List Int) (a : Arr α) (axis : Int) (k : Nat) (hk : k < a.shape.length)
    (hax : axis = k ∨ axis = (k : Int) - a.shape.length) (hL : a.shape.getD k 0 ≠ 1 ∨ L.length ≤ 1) :
    commonReplExp L a axis = .ok (a, k) := by
  unfold commonReplExp
  have hne : a.shape ≠ [] := by intro h; rw [h] at hk; simp at hk
  rw [if_neg hne]
  have hax' : (if axis < 0 then (a.shape.length : Int) + axis else axis) = k := by
    split <;> omega
  simp only [hax']
  rw [if_neg (by omega)]
  simp only [Int.toNat_natCast, sliceAt_getD a.shape 0 hk, bind, Except.bind]
  rw [if_neg (by omega)]
  rfl

theorem extendL_of_ne {L : List Int} {len : Nat} (h : L.length ≠ 1 ∨ len ≤ 1) : extendL L len = L := by
  unfold extendL
  split
  · rw [if_neg]; simp at h; omega
  · rfl

theorem extendAxis_spec {α} (n k : Nat) (a : Arr α) (hw : a.WF) (hk : k < a.shape.length) (h1 : a.shape.getD k 0 = 1) :
    ∃ r, extendAxis n k a = .ok r ∧ r.WF ∧ r.shape = a.shape.set k n ∧
      ∀ idx, InB r.shape idx → InB a.shape (idx.set k 0) ∧ r.get? idx = a.get? (idx.set k 0) := by
  have hne : a.shape ≠ [] := by intro h; rw [h] at hk; simp at hk
  have hne' : a.shape.set k n ≠ [] := by
    intro h; have := congrArg List.length h; simp at this; exact hne this
  have hin : ∀ idx, InB (a.shape.set k n) idx → InB a.shape (idx.set k 0) := by
    intro idx h
    rw [InB_iff] at h ⊢
    simp only [List.length_set] at h ⊢
    refine ⟨h.1, ?_⟩
    intro j hj
    rw [getD_set]
    by_cases e : k = j
    · subst e; rw [if_pos ⟨rfl, by omega⟩]; omega
    · rw [if_neg (by omega)]
      have := h.2 j hj
      rw [getD_set, if_neg (by omega)] at this
      exact this
  obtain ⟨r, g1, g2, g3, g4⟩ := odo_gather hw (s := a.shape.set k n) (f := fun idx => idx.set k 0)
    (body := fun _ dst => sliceAt a.data (icIndex (strides a.shape) (dst.set k 0)))
    (fun idx h => rfl) hin
  refine ⟨r, ?_, g3, g2, ?_⟩
  · unfold extendAxis
    rw [newIdxConverter_ok hne]
    simp only [bind, Except.bind, prod_eq_size hne', g1, pure, Except.pure]
    rw [← g2]
  · intro idx hidx
    rw [g2] at hidx
    exact ⟨hin idx hidx, g4 idx hidx⟩

/-- the array function on an already extended argument of matching length -/
theorem replicate_core {α} (zero : α) (L : List Int) (a : Arr α) (k : Nat) (hw : a.WF)
    (hk : k < a.shape.length) (hL : L.length = a.shape.getD k 0) :
    ∃ r, (if ¬ L.any (fun n => n < 0 ∨ n > 1) then compress L a k
      else do
        let am := axisMap L 0
        let shape := a.shape.set k am.length
        let (ic, _) ← newIdxConverter a.shape
        let d ← odoLoop shape (fun _ dst => do
          match ← sliceAt am (dst.getD k 0) with
          | none => return zero
          | some n => sliceAt a.data (icIndex ic (dst.set k n))) (prod shape) 0 (List.replicate shape.length 0)
        return ⟨shape, d⟩) = .ok r ∧ r.WF ∧ r.shape = a.shape.set k (axisMap L 0).length ∧
      ∀ idx, InB r.shape idx → ∃ o, (axisMap L 0)[idx.getD k 0]? = some o ∧
        match o with
        | none => r.get? idx = some zero
        | some j => InB a.shape (idx.set k j) ∧ r.get? idx = a.get? (idx.set k j) := by
  have hne : a.shape ≠ [] := by intro h; rw [h] at hk; simp at hk
  by_cases hb : L.any (fun n => n < 0 ∨ n > 1)
  · rw [if_neg (fun h => h hb)]
    let am := axisMap L 0
    let s' := a.shape.set k am.length
    have hne' : s' ≠ [] := by
      intro h; have := congrArg List.length h; simp [s'] at this; exact hne this
    have hget : ∀ idx, InB s' idx → idx.getD k 0 < am.length := by
      intro idx h
      have := h.getD_lt (k := k) (by simpa [s'] using hk)
      simp only [s'] at this
      rwa [getD_set, if_pos ⟨rfl, hk⟩] at this
    have hin : ∀ idx j, InB s' idx → am[idx.getD k 0]? = some (some j) → InB a.shape (idx.set k j) := by
      intro idx j h hj
      have := (axisMap_mem (List.mem_of_getElem? hj) j rfl).2
      rw [InB_iff] at h ⊢
      simp only [List.length_set, s'] at h ⊢
      refine ⟨h.1, ?_⟩
      intro i hi
      rw [getD_set]
      by_cases e : k = i
      · subst e; rw [if_pos ⟨rfl, by omega⟩]; omega
      · rw [if_neg (by omega)]
        have := h.2 i hi
        rw [getD_set, if_neg (by omega)] at this
        exact this
    obtain ⟨r, g1, g2, g3, g4⟩ := odo_spec (s := s') (body := fun _ dst => do
          match ← sliceAt am (dst.getD k 0) with
          | none => return zero
          | some n => sliceAt a.data (icIndex (strides a.shape) (dst.set k n)))
        (g := fun idx => match am.getD (idx.getD k 0) none with
          | none => some zero
          | some j => a.get? (idx.set k j)) (by
        intro idx h
        have hlt := hget idx h
        simp only [sliceAt_getD am none hlt, bind, Except.bind, pure, Except.pure]
        cases ho : am.getD (idx.getD k 0) none with
        | none => exact ⟨zero, rfl, rfl⟩
        | some j =>
          have hj : am[idx.getD k 0]? = some (some j) := by
            rw [getD_eq_getElem _ _ hlt] at ho
            rw [List.getElem?_eq_getElem hlt, ho]
          have hi := hin idx j h hj
          simp only
          rw [icIndex_strides hi.length_eq, Arr.get?_of_inB hi]
          have := flat_lt hi
          rw [← hw] at this
          exact ⟨_, sliceAt_ok this, List.getElem?_eq_getElem this⟩)
    refine ⟨r, ?_, g3, g2, ?_⟩
    · simp only [newIdxConverter_ok hne]
      simp only [bind, Except.bind] at g1 ⊢
      rw [show prod (a.shape.set k (axisMap L 0).length) = size s' from prod_eq_size hne']
      rw [show a.shape.set k (axisMap L 0).length = s' from rfl, g1]
      simp only [pure, Except.pure, ← g2]
    · intro idx hidx
      rw [g2] at hidx
      have hlt := hget idx hidx
      have hg := g4 idx hidx
      rw [getD_eq_getElem _ _ hlt] at hg
      refine ⟨am[idx.getD k 0], List.getElem?_eq_getElem hlt, ?_⟩
      cases ho : am[idx.getD k 0] with
      | none => rw [ho] at hg; exact hg
      | some j =>
        rw [ho] at hg
        exact ⟨hin idx j hidx (by rw [List.getElem?_eq_getElem hlt, ho]), hg⟩
  · rw [if_pos hb]
    obtain ⟨r, h1, h2, h3, h4⟩ := compress_spec L a k hw hL hk (by
      intro n hn
      simp only [List.any_eq_true, not_exists, not_and, decide_eq_true_eq] at hb
      have := hb n hn; omega)
    refine ⟨r, h1, h2, h3, ?_⟩
    intro idx hidx
    obtain ⟨j, hj, hg⟩ := h4 idx hidx
    exact ⟨some j, hj, hg⟩

end Iv

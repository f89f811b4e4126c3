import Verif.Lemmas.Effect
namespace Iv

theorem insertIdx_set_self {β} (l : List β) (k : Nat) (u v : β) (h : k ≤ l.length) :
    (l.insertIdx k u).set k v = l.insertIdx k v := by
  induction l generalizing k with
  | nil => simp at h; subst h; rfl
  | cons x xs ih =>
    cases k with
    | zero => rfl
    | succ k => simp at h; simp [ih k h]

theorem insertIdx_eraseIdx_getD {l : List Nat} {k : Nat} (h : k < l.length) :
    (l.eraseIdx k).insertIdx k (l.getD k 0) = l := by
  induction l generalizing k with
  | nil => simp at h
  | cons x xs ih =>
    cases k with
    | zero => rfl
    | succ k => simp at h; simpa using ih h

theorem allIdx_set1 (s : List Nat) (k : Nat) (h : k < s.length) :
    allIdx (s.set k 1) = (allIdx (s.eraseIdx k)).map (fun idx => idx.insertIdx k 0) := by
  induction s generalizing k with
  | nil => simp at h
  | cons n ns ih =>
    cases k with
    | zero => simp [allIdx]
    | succ k =>
      simp only [List.set_cons_succ, allIdx, List.eraseIdx_cons_succ, List.map_flatMap]
      simp at h
      rw [ih k h]
      congr 1
      funext i
      simp

theorem size_set1 (s : List Nat) (k : Nat) (h : k < s.length) : size (s.set k 1) = size (s.eraseIdx k) := by
  rw [← allIdx_length, ← allIdx_length, allIdx_set1 s k h, List.length_map]

section loops
variable {M : Type → Type} [Monad M] [LawfulMonad M] {β γ δ : Type}

/-- a loop stepping an index vector, calling `g` and writing its result -/
theorem idxLoop_aux (s : List Nat) (g : List Nat → M γ) (w : List Nat → δ → γ → δ)
    (L : Nat → List Nat → δ → M δ) (h0 : ∀ idx r, L 0 idx r = pure r)
    (hs : ∀ c idx r, L (c + 1) idx r = (do let v ← g idx; L c (incArrayIndex idx s) (w idx r v)))
    (n i : Nat) (h : i + n ≤ size s) (r : δ) :
    L n (unflat s i) r =
      ((List.range' i n).map (unflat s)).foldlM (fun r x => do let v ← g x; pure (w x r v)) r := by
  induction n generalizing i r with
  | zero => simp [h0]
  | succ n ih =>
    rw [hs, List.range'_succ, List.map_cons, List.foldlM_cons, bind_assoc]
    congr 1
    funext v
    rw [pure_bind]
    cases n with
    | zero => simp [h0]
    | succ n =>
      rw [incArrayIndex_unflat (by omega), Nat.mod_eq_of_lt (by omega), ih (i + 1) (by omega)]

theorem idxLoop_eq (s : List Nat) (g : List Nat → M γ) (w : List Nat → δ → γ → δ)
    (L : Nat → List Nat → δ → M δ) (h0 : ∀ idx r, L 0 idx r = pure r)
    (hs : ∀ c idx r, L (c + 1) idx r = (do let v ← g idx; L c (incArrayIndex idx s) (w idx r v))) (r : δ) :
    L (size s) (List.replicate s.length 0) r =
      (do let vs ← (allIdx s).mapM g; pure (((allIdx s).zip vs).foldl (fun r p => w p.1 r p.2) r)) := by
  rw [← unflat_zero, idxLoop_aux s g w L h0 hs (size s) 0 (by omega), ← foldlM_split, allIdx_eq,
    List.range_eq_range']

theorem mapM_bind_len (l : List β) (g : β → M γ) (k k' : List γ → M δ)
    (hk : ∀ vs, vs.length = l.length → k vs = k' vs) :
    (l.mapM g >>= k) = (l.mapM g >>= k') := by
  apply mapM_bind_congr l g (fun _ => True) k k'
  · intro x _ k k' h
    congr 1
    funext v
    exact h v trivial
  · intro vs h _; exact hk vs h

end loops

/-- lookup in a list of rows along axis `k` of shape `t`, position permuted by `σ` -/
def rowAt {α} (t : List Nat) (k : Nat) (σ : Nat → Nat) (rows : List (List α)) (idx : List Nat) : Option α :=
  (rows[flat (t.eraseIdx k) (idx.eraseIdx k)]?).bind (fun r => r[σ (idx.getD k 0)]?)

theorem rowAt_isSome {α} {t : List Nat} {k : Nat} (hk : k < t.length) {σ : Nat → Nat}
    {rows : List (List α)} (hr : rows.length = size (t.eraseIdx k)) (hrow : ∀ r ∈ rows, r.length = t.getD k 0)
    (hσ : ∀ j, j < t.getD k 0 → σ j < t.getD k 0) {idx : List Nat} (h : InB t idx) :
    ∃ v, rowAt t k σ rows idx = some v := by
  have h1 := flat_lt (InB_eraseIdx h k)
  have h2 := hσ _ (h.getD_lt hk)
  unfold rowAt
  rw [List.getElem?_eq_getElem (by omega)]
  simp only [Option.bind_some]
  have h3 := hrow _ (List.getElem_mem (by omega : flat (t.eraseIdx k) (idx.eraseIdx k) < rows.length))
  exact ⟨_, List.getElem?_eq_getElem (by omega)⟩

theorem scatter_rows {α} {t : List Nat} {k : Nat} (hk : k < t.length) (σ : Nat → Nat)
    (hσ : ∀ j, j < t.getD k 0 → σ j < t.getD k 0) (hσσ : ∀ j, j < t.getD k 0 → σ (σ j) = j)
    (rows : List (List α)) (hr : rows.length = size (t.eraseIdx k)) (hrow : ∀ r ∈ rows, r.length = t.getD k 0) :
    applySets (List.replicate (size t) none)
      (((allIdx (t.eraseIdx k)).zip rows).flatMap (fun p =>
        (p.2.zipIdx).map (fun q => (flat t (p.1.insertIdx k (σ q.2)), some q.1)))) =
      (allIdx t).map (rowAt t k σ rows) := by
  have hlenE : (t.eraseIdx k).length = t.length - 1 := by rw [List.length_eraseIdx, if_pos hk]
  have ins : ∀ f, InB (t.eraseIdx k) f → ∀ j, j < t.getD k 0 → InB t (f.insertIdx k j) := by
    intro f hf j hj
    have hfl := hf.length_eq
    rw [InB_iff] at hf ⊢
    refine ⟨by rw [List.length_insertIdx, if_pos (by omega)]; omega, ?_⟩
    intro i hi
    rw [getD_insertIdx _ _ _ _ (by omega)]
    split
    · have := hf.2 i (by omega)
      rwa [getD_eraseIdx, if_neg (by omega)] at this
    · split
      · rename_i h; rw [h]; exact hj
      · have := hf.2 (i - 1) (by omega)
        rwa [getD_eraseIdx, if_pos (by omega), Nat.sub_add_cancel (by omega)] at this
  have insget : ∀ f, InB (t.eraseIdx k) f → ∀ j, (f.insertIdx k j).getD k 0 = j ∧ (f.insertIdx k j).eraseIdx k = f := by
    intro f hf j
    have hfl := hf.length_eq
    refine ⟨?_, ?_⟩
    · rw [getD_insertIdx _ _ _ _ (by omega), if_neg (by omega), if_pos rfl]
    · rw [List.eraseIdx_insertIdx_self]
  apply applySets_cover _ (by simp)
  · intro w hw
    obtain ⟨p, hp, hw⟩ := List.mem_flatMap.1 hw
    obtain ⟨q, hq, hw⟩ := List.mem_map.1 hw
    obtain ⟨i, hi⟩ := List.getElem?_of_mem hp
    rw [List.getElem?_zip_eq_some] at hi
    obtain ⟨hi1, hi2⟩ := hi
    have hrl := hrow _ (List.mem_of_getElem? hi2)
    have hfi : InB (t.eraseIdx k) p.1 := mem_allIdx.1 (List.mem_of_getElem? hi1)
    have hflat : flat (t.eraseIdx k) p.1 = i := by
      have hil : i < size (t.eraseIdx k) := by
        have := (List.getElem?_eq_some_iff.1 hi1).1
        rwa [allIdx_length] at this
      rw [allIdx_eq, List.getElem?_map, List.getElem?_range hil] at hi1
      simp at hi1
      rw [← hi1, flat_unflat hil]
    have hq' : p.2[q.2]? = some q.1 := by
      have := List.mem_zipIdx_iff_getElem?.1 hq
      exact this
    have hql : q.2 < t.getD k 0 := by
      have := (List.getElem?_eq_some_iff.1 hq').1
      omega
    refine ⟨p.1.insertIdx k (σ q.2), ins _ hfi _ (hσ _ hql), ?_⟩
    rw [← hw]
    congr 1
    unfold rowAt
    obtain ⟨e1, e2⟩ := insget p.1 hfi (σ q.2)
    rw [e1, e2, hflat, hi2, hσσ _ hql]
    exact hq'.symm
  · intro idx hidx
    have hE := InB_eraseIdx hidx k
    have hjl := hidx.getD_lt hk
    have hfl := flat_lt hE
    obtain ⟨v, hv⟩ := rowAt_isSome hk hr hrow hσ hidx
    have hil : idx.length = t.length := hidx.length_eq
    apply List.mem_flatMap.2
    refine ⟨(idx.eraseIdx k, rows[flat (t.eraseIdx k) (idx.eraseIdx k)]), ?_, ?_⟩
    · apply List.mem_of_getElem? (i := flat (t.eraseIdx k) (idx.eraseIdx k))
      rw [List.getElem?_zip_eq_some]
      exact ⟨allIdx_getElem? hE, List.getElem?_eq_getElem (by omega)⟩
    · apply List.mem_map.2
      refine ⟨(v, σ (idx.getD k 0)), ?_, ?_⟩
      · rw [List.mem_zipIdx_iff_getElem?]
        unfold rowAt at hv
        rw [List.getElem?_eq_getElem (by omega)] at hv
        simpa using hv
      · rw [hv]
        simp only
        rw [hσσ _ hjl, insertIdx_eraseIdx_getD (by omega)]

theorem filterMap_congr' {β γ} {l : List β} {f g : β → Option γ} (h : ∀ x ∈ l, f x = g x) :
    l.filterMap f = l.filterMap g := by
  induction l with
  | nil => rfl
  | cons x xs ih => simp only [List.filterMap_cons, h x (by simp), ih (fun y hy => h y (by simp [hy]))]

theorem map_some_filterMap {β γ} (l : List β) (g : β → Option γ) (h : ∀ x ∈ l, ∃ v, g x = some v) :
    l.map g = (l.filterMap g).map some := by
  induction l with
  | nil => rfl
  | cons x xs ih =>
    obtain ⟨v, hv⟩ := h x (by simp)
    simp [hv, ih (fun y hy => h y (by simp [hy]))]

theorem scatter_noNil {α} {t : List Nat} {k : Nat} (hk : k < t.length)
    (rows : List (List α)) (hr : rows.length = size (t.eraseIdx k)) (hrow : ∀ r ∈ rows, r.length = t.getD k 0) :
    noNil (applySets (List.replicate (size t) none)
      (((allIdx (t.eraseIdx k)).zip rows).flatMap (fun p =>
        (p.2.zipIdx).map (fun q => (flat t (p.1.insertIdx k q.2), some q.1))))) =
      .ok (Arr.ofLines t k rows).data := by
  have h := scatter_rows hk (fun j => j) (fun j h => h) (fun j _ => rfl) rows hr hrow
  rw [h, map_some_filterMap _ _ (fun idx hi => rowAt_isSome hk hr hrow (fun j h => h) (mem_allIdx.1 hi)), noNil_map_some]
  rfl

theorem scatter_noNil_rev {α} {t : List Nat} {k : Nat} (hk : k < t.length)
    (rows : List (List α)) (hr : rows.length = size (t.eraseIdx k)) (hrow : ∀ r ∈ rows, r.length = t.getD k 0) :
    noNil (applySets (List.replicate (size t) none)
      (((allIdx (t.eraseIdx k)).zip rows).flatMap (fun p =>
        (p.2.zipIdx).map (fun q => (flat t (p.1.insertIdx k (t.getD k 0 - 1 - q.2)), some q.1))))) =
      .ok (Arr.ofLines t k (rows.map List.reverse)).data := by
  have hσ : ∀ j, j < t.getD k 0 → t.getD k 0 - 1 - j < t.getD k 0 := fun j h => by omega
  have h := scatter_rows hk (fun j => t.getD k 0 - 1 - j) hσ (fun j h => by omega) rows hr hrow
  rw [h, map_some_filterMap _ _ (fun idx hi => rowAt_isSome hk hr hrow hσ (mem_allIdx.1 hi)), noNil_map_some]
  congr 1
  show (allIdx t).filterMap _ = (allIdx t).filterMap _
  apply filterMap_congr'
  intro idx hi
  have hidx := mem_allIdx.1 hi
  have hE := flat_lt (InB_eraseIdx hidx k)
  have hj := hidx.getD_lt hk
  unfold rowAt
  rw [List.getElem?_map, List.getElem?_eq_getElem (by omega)]
  simp only [Option.map_some, Option.bind_some]
  have h3 := hrow _ (List.getElem_mem (by omega : flat (t.eraseIdx k) (idx.eraseIdx k) < rows.length))
  rw [List.getElem?_reverse (by omega), h3]

theorem ofLines_spec {α} {t : List Nat} {k : Nat} (hk : k < t.length)
    (rows : List (List α)) (hr : rows.length = size (t.eraseIdx k)) (hrow : ∀ r ∈ rows, r.length = t.getD k 0) :
    (Arr.ofLines t k rows).WF ∧ ∀ idx, InB t idx →
      (Arr.ofLines t k rows).get? idx = (rows[flat (t.eraseIdx k) (idx.eraseIdx k)]?).bind (fun r => r[idx.getD k 0]?) := by
  have hsome : ∀ idx ∈ allIdx t, ∃ v, rowAt t k (fun j => j) rows idx = some v :=
    fun idx hi => rowAt_isSome hk hr hrow (fun j h => h) (mem_allIdx.1 hi)
  have hm := map_some_filterMap _ _ hsome
  have hd : (Arr.ofLines t k rows).data = (allIdx t).filterMap (rowAt t k (fun j => j) rows) := rfl
  refine ⟨?_, ?_⟩
  · unfold Arr.WF
    rw [hd]
    have := congrArg List.length hm
    rw [List.length_map, List.length_map, allIdx_length] at this
    exact this.symm
  · intro idx hidx
    rw [Arr.get?_of_inB (show InB (Arr.ofLines t k rows).shape idx from hidx)]
    have h1 : (((allIdx t).filterMap (rowAt t k (fun j => j) rows)).map some)[flat t idx]? =
        ((allIdx t).map (rowAt t k (fun j => j) rows))[flat t idx]? := by rw [hm]
    rw [List.getElem?_map, List.getElem?_map, allIdx_getElem? hidx, Option.map_some] at h1
    show ((allIdx t).filterMap (rowAt t k (fun j => j) rows))[flat t idx]? = rowAt t k (fun j => j) rows idx
    obtain ⟨v, hv⟩ := hsome idx (mem_allIdx.2 hidx)
    rw [hv] at h1 ⊢
    simpa using h1

end Iv

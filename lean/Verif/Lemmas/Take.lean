import Verif.Model.Take
import Verif.Lemmas.Shape
namespace Iv

theorem setAll_length {β} (s : List β) (ps : List (Nat × β)) : (setAll s ps).length = s.length := by
  induction ps generalizing s with
  | nil => rfl
  | cons p ps ih => obtain ⟨k, v⟩ := p; simp [setAll, ih]

theorem idxOf_cons_ne' {j k : Nat} {js : List Nat} (h : ¬ j = k) :
    (j :: js).idxOf k = js.idxOf k + 1 := by
  have : (j == k) = false := by simp [h]
  simp [List.idxOf_cons, this]

theorem setAll_get {β} (s : List β) (x : List Nat) (v : List β) (hn : x.Nodup)
    (hl : v.length = x.length) {k : Nat} (hk : k < s.length) :
    (setAll s (x.zip v))[k]? = some ((v[x.idxOf k]?).getD s[k]) := by
  induction x generalizing s v with
  | nil =>
    have : v = [] := by simpa using hl
    subst this; simp [setAll, hk]
  | cons j js ih =>
    cases v with
    | nil => simp at hl
    | cons w ws =>
      rw [List.nodup_cons] at hn
      simp only [List.zip_cons_cons, setAll]
      rw [ih _ ws hn.2 (by simpa using hl) (by simpa using hk)]
      by_cases hjk : j = k
      · subst hjk
        have : js.idxOf j = js.length := List.idxOf_eq_length hn.1
        simp only [List.length_cons, Nat.add_right_cancel_iff] at hl
        simp [this, hl]
      · rw [idxOf_cons_ne' hjk]
        simp [hjk]

theorem takeOffLoop_length (rs : List Nat) (s : List Int) (ps : List (Nat × Int)) :
    (takeOffLoop rs s ps).length = s.length := by
  induction ps generalizing s with
  | nil => rfl
  | cons p ps ih => obtain ⟨k, v⟩ := p; simp only [takeOffLoop, ih]; split <;> simp

theorem takeOffLoop_get (rs : List Nat) (s : List Int) (x : List Nat) (v : List Int) (hn : x.Nodup)
    (hl : v.length = x.length) {k : Nat} (hk : k < s.length) :
    (takeOffLoop rs s (x.zip v))[k]? = some (match v[x.idxOf k]? with
      | some n => if n < 0 then (rs.getD k 0 : Int) + n else s[k]
      | none => s[k]) := by
  induction x generalizing s v with
  | nil =>
    have : v = [] := by simpa using hl
    subst this; simp [takeOffLoop, hk]
  | cons j js ih =>
    cases v with
    | nil => simp at hl
    | cons w ws =>
      rw [List.nodup_cons] at hn
      simp only [List.zip_cons_cons, takeOffLoop]
      have hlen : k < (if w < 0 then s.set j ((rs.getD j 0 : Int) + w) else s).length := by
        split <;> simpa using hk
      rw [ih _ ws hn.2 (by simpa using hl) hlen]
      by_cases hjk : j = k
      · subst hjk
        have : js.idxOf j = js.length := List.idxOf_eq_length hn.1
        simp only [List.length_cons, Nat.add_right_cancel_iff] at hl
        simp only [this, List.idxOf_cons_self, List.getElem?_cons_zero]
        rw [List.getElem?_eq_none (by omega)]
        simp only
        split <;> simp
      · rw [idxOf_cons_ne' hjk, List.getElem?_cons_succ]
        have e : (if w < 0 then s.set j ((rs.getD j 0 : Int) + w) else s)[k] = s[k] := by
          split
          · simp [hjk]
          · rfl
        rw [e]

theorem InB_iff {s i : List Nat} : InB s i ↔ i.length = s.length ∧
    ∀ k, k < s.length → i.getD k 0 < s.getD k 0 := by
  induction s generalizing i with
  | nil => cases i <;> simp [InB]
  | cons n ns ih => cases i with
    | nil => simp [InB]
    | cons j js =>
      simp only [InB, ih, List.length_cons, Nat.add_right_cancel_iff]
      constructor
      · rintro ⟨h1, h2, h3⟩
        refine ⟨h2, ?_⟩
        intro k hk
        cases k with
        | zero => simpa using h1
        | succ k => simpa using h3 k (by omega)
      · rintro ⟨h1, h2⟩
        refine ⟨by simpa using h2 0 (by omega), h1, ?_⟩
        intro k hk
        simpa using h2 (k+1) (by omega)

/-- how far the source of a take starts from the beginning of axis `k` -/
def takeStart (rs : List Nat) (arg : Option Int) (k : Nat) : Int :=
  match arg with
  | some n => if n < 0 then (rs.getD k 0 : Int) + n else 0
  | none => 0

/-- length of axis `k` after a take -/
def takeLen (rs : List Nat) (arg : Option Int) (k : Nat) : Nat :=
  match arg with
  | some n => n.natAbs
  | none => rs.getD k 0

theorem zipWith_any {α β} (l : List α) (m : List β) (f : α → β → Bool) (h : l.length = m.length) (da : α) (db : β) :
    (List.zipWith f l m).any id = true ↔ ∃ k, k < l.length ∧ f (l.getD k da) (m.getD k db) = true := by
  induction l generalizing m with
  | nil => simp
  | cons x xs ih => cases m with
    | nil => simp at h
    | cons y ys =>
      simp only [List.zipWith_cons_cons, List.any_cons, id, Bool.or_eq_true, ih ys (by simpa using h)]
      constructor
      · rintro (h | ⟨k, hk, h⟩)
        · exact ⟨0, by simp, by simpa using h⟩
        · exact ⟨k+1, by simpa using hk, by simpa using h⟩
      · rintro ⟨k, hk, h⟩
        cases k with
        | zero => left; simpa using h
        | succ k => right; exact ⟨k, by simpa using hk, by simpa using h⟩

theorem getD_getElem? {β} {l : List β} {k : Nat} {d v : β} (h : l[k]? = some v) : l.getD k d = v := by
  simp [List.getD, h]

theorem list_eq_range_getD {β} (l : List β) (d : β) (n : Nat) (h : l.length = n) :
    l = (List.range n).map (fun k => l.getD k d) := by
  apply List.ext_getElem
  · simp [h]
  · intro i h1 h2
    simp [List.getD, h1]

theorem takeArr_spec {α} (z : α) (ai : List Int) (a : Arr α) (x : List Nat)
    (hl : ai.length = x.length) (hn : x.Nodup) (hx : ∀ j ∈ x, j < a.shape.length)
    (hs : a.shape ≠ []) (hw : a.WF) :
    ∃ r, takeArr z ai a x = .ok r ∧ r.WF ∧ r.shape.length = a.shape.length ∧
      (∀ k, k < a.shape.length → r.shape.getD k 0 = takeLen a.shape ai[x.idxOf k]? k) ∧
      ∀ idx, InB r.shape idx →
        let src := fun k => (idx.getD k 0 : Int) + takeStart a.shape ai[x.idxOf k]? k
        ((∀ k, k < a.shape.length → 0 ≤ src k ∧ src k < a.shape.getD k 0) →
          r.get? idx = a.get? ((List.range a.shape.length).map (fun k => (src k).toNat)) ∧
          InB a.shape ((List.range a.shape.length).map (fun k => (src k).toNat))) ∧
        (¬ (∀ k, k < a.shape.length → 0 ≤ src k ∧ src k < a.shape.getD k 0) →
          r.get? idx = some z) := by
  have hoffl : (takeOff a.shape ai x).length = a.shape.length := by
    simp [takeOff, takeOffLoop_length]
  have hoff : ∀ k, k < a.shape.length →
      (takeOff a.shape ai x).getD k 0 = takeStart a.shape ai[x.idxOf k]? k := by
    intro k hk
    have := takeOffLoop_get a.shape (a.shape.map (fun _ => (0:Int))) x ai hn hl (k := k) (by simpa using hk)
    apply getD_getElem?
    unfold takeOff
    rw [this]
    unfold takeStart
    congr 1
    cases ai[x.idxOf k]? <;> simp
  have hshl : (takeShape a.shape ai x).length = a.shape.length := by simp [takeShape, setAll_length]
  have hsh : ∀ k, k < a.shape.length →
      (takeShape a.shape ai x).getD k 0 = takeLen a.shape ai[x.idxOf k]? k := by
    intro k hk
    have := setAll_get a.shape x (ai.map Int.natAbs) hn (by simpa using hl) hk
    apply getD_getElem?
    unfold takeShape
    rw [this]
    unfold takeLen
    rw [List.getElem?_map]
    cases ai[x.idxOf k]? <;> simp [List.getD, hk]
  have hshne : takeShape a.shape ai x ≠ [] := by
    intro h; rw [h] at hshl; simp at hshl; exact hs (List.length_eq_zero_iff.1 hshl.symm)
  -- the loop body
  let body : Nat → List Nat → Res α := fun _ idx =>
      let src : List Int := List.zipWith (fun (i : Nat) o => (i : Int) + o) idx (takeOff a.shape ai x)
      if (List.zipWith (fun (s : Int) (r : Nat) => decide (s < 0 ∨ (r : Int) ≤ s)) src a.shape).any id then .ok z
      else sliceAt a.data (icIndex (strides a.shape) (src.map Int.toNat))
  have hbody : ∀ idx, InB (takeShape a.shape ai x) idx →
      let src := fun k => (idx.getD k 0 : Int) + takeStart a.shape ai[x.idxOf k]? k
      ((∀ k, k < a.shape.length → 0 ≤ src k ∧ src k < a.shape.getD k 0) →
         InB a.shape ((List.range a.shape.length).map (fun k => (src k).toNat)) ∧
         body (flat (takeShape a.shape ai x) idx) idx = sliceAt a.data (flat a.shape ((List.range a.shape.length).map (fun k => (src k).toNat)))) ∧
        (¬ (∀ k, k < a.shape.length → 0 ≤ src k ∧ src k < a.shape.getD k 0) →
          body (flat (takeShape a.shape ai x) idx) idx = .ok z) := by
    intro idx hidx src
    have hil : idx.length = a.shape.length := by rw [hidx.length_eq, hshl]
    have hsl : (List.zipWith (fun (i : Nat) o => (i : Int) + o) idx (takeOff a.shape ai x)) =
        (List.range a.shape.length).map src := by
      apply List.ext_getElem
      · simp [hil, hoffl]
      · intro k h1 h2
        have hk : k < a.shape.length := by simpa using h2
        have := hoff k hk
        simp only [List.getElem_zipWith, List.getElem_map, List.getElem_range, src]
        rw [← this]
        simp [List.getD, hoffl, hk, hil]
    have hany : (List.zipWith (fun (s : Int) (r : Nat) => decide (s < 0 ∨ (r : Int) ≤ s)) ((List.range a.shape.length).map src) a.shape).any id = true
        ↔ ¬ (∀ k, k < a.shape.length → 0 ≤ src k ∧ src k < a.shape.getD k 0) := by
      rw [zipWith_any _ _ _ (by simp) 0 0]
      constructor
      · rintro ⟨k, hk, h⟩ hall
        have hk' : k < a.shape.length := by simpa using hk
        have := hall k hk'
        simp [List.getD, hk'] at h this
        omega
      · intro h
        apply Classical.byContradiction
        intro hne
        apply h
        intro k hk
        have : ¬ (decide ((((List.range a.shape.length).map src).getD k 0) < 0 ∨ ((a.shape.getD k 0 : Nat) : Int) ≤ (((List.range a.shape.length).map src).getD k 0)) = true) := by
          intro hc; exact hne ⟨k, by simpa using hk, hc⟩
        simp [List.getD, hk] at this ⊢
        omega
    constructor
    · intro hall
      have hin : InB a.shape ((List.range a.shape.length).map (fun k => (src k).toNat)) := by
        rw [InB_iff]
        refine ⟨by simp, ?_⟩
        intro k hk
        have := hall k hk
        simp [List.getD, hk] at this ⊢
        omega
      refine ⟨hin, ?_⟩
      simp only [body]
      rw [hsl, if_neg (by rw [hany]; exact fun h => h hall), List.map_map,
        icIndex_strides (by simp)]
      rfl
    · intro hnall
      simp only [body]
      rw [hsl, if_pos (by rw [hany]; exact hnall)]
  obtain ⟨r, h1, h2, h3, h4⟩ := odoLoop_arr (s := takeShape a.shape ai x) (body := body) (by
    intro idx hidx
    by_cases hc : ∀ k, k < a.shape.length → 0 ≤ (idx.getD k 0 : Int) + takeStart a.shape ai[x.idxOf k]? k ∧ (idx.getD k 0 : Int) + takeStart a.shape ai[x.idxOf k]? k < a.shape.getD k 0
    · obtain ⟨hin, hb⟩ := (hbody idx hidx).1 hc
      rw [hb]
      have := flat_lt hin
      exact ⟨_, sliceAt_ok (by rw [hw]; exact this)⟩
    · exact ⟨z, (hbody idx hidx).2 hc⟩)
  refine ⟨r, ?_, h3, by rw [h2, hshl], by intro k hk; rw [h2]; exact hsh k hk, ?_⟩
  · unfold takeArr
    rw [if_neg (by omega), if_neg (by
      rw [List.any_eq_true]; rintro ⟨j, hj, hle⟩; have := hx j hj; simp at hle; omega)]
    have : newIdxConverter a.shape = .ok (strides a.shape, List.replicate a.shape.length 0) := by
      cases hh : a.shape with
      | nil => exact absurd hh hs
      | cons n ns => rfl
    simp only [this, bind, Except.bind, prod_eq_size hshne]
    have h1' := h1
    simp only [body] at h1'
    rw [h1']
    simp only [pure, Except.pure]
    rw [← h2]
  · intro idx hidx src
    rw [h2] at hidx
    obtain ⟨v, hv, hg⟩ := h4 idx hidx
    refine ⟨?_, ?_⟩
    · intro hall
      obtain ⟨hin, hb⟩ := (hbody idx hidx).1 hall
      rw [hb] at hv
      refine ⟨?_, hin⟩
      rw [hg, Arr.get?_of_inB hin, sliceAt_eq_ok.1 hv]
    · intro hnall
      rw [(hbody idx hidx).2 hnall] at hv
      rw [hg]; cases hv; rfl

end Iv

import Verif.Model.Transpose
import Verif.Lemmas.Rotate
namespace Iv

theorem mapM_ok {β γ} (l : List β) (f : β → Res γ) (g : β → γ) (h : ∀ x ∈ l, f x = .ok (g x)) :
    l.mapM f = .ok (l.map g) := by
  induction l with
  | nil => rfl
  | cons x xs ih =>
    rw [List.mapM_cons, h x (by simp), ih (fun y hy => h y (by simp [hy]))]
    rfl

theorem foldl_max_ge (l : List Nat) (m : Nat) :
    m ≤ l.foldl (fun m n => if m < n then n else m) m ∧
    ∀ x ∈ l, x ≤ l.foldl (fun m n => if m < n then n else m) m := by
  induction l generalizing m with
  | nil => simp
  | cons y ys ih =>
    simp only [List.foldl_cons]
    obtain ⟨h1, h2⟩ := ih (if m < y then y else m)
    constructor
    · refine Nat.le_trans ?_ h1; split <;> omega
    · intro x hx
      rcases List.mem_cons.1 hx with h | h
      · subst h; refine Nat.le_trans ?_ h1; split <;> omega
      · exact h2 x h

theorem maxL_aux (l : List Int) (m : Int) :
    m ≤ l.foldl (fun m v => if m < v then v else m) m ∧
    (∀ x ∈ l, x ≤ l.foldl (fun m v => if m < v then v else m) m) ∧
    (l.foldl (fun m v => if m < v then v else m) m = m ∨ l.foldl (fun m v => if m < v then v else m) m ∈ l) := by
  induction l generalizing m with
  | nil => simp
  | cons y ys ih =>
    simp only [List.foldl_cons]
    obtain ⟨h1, h2, h3⟩ := ih (if m < y then y else m)
    refine ⟨?_, ?_, ?_⟩
    · refine Int.le_trans ?_ h1; split <;> omega
    · intro x hx
      rcases List.mem_cons.1 hx with h | h
      · subst h; refine Int.le_trans ?_ h1; split <;> omega
      · exact h2 x h
    · rcases h3 with h | h
      · by_cases hc : m < y
        · right; rw [h, if_pos hc]; simp
        · left; rw [h, if_neg hc]
      · right; exact List.mem_cons_of_mem _ h

theorem foldl_min_aux (l : List (Nat × Int)) (t : Int) (m : Nat) :
    let r := l.foldl (fun m p => if p.2 = t then (if p.1 < m then p.1 else m) else m) m
    r ≤ m ∧ (∀ p ∈ l, p.2 = t → r ≤ p.1) ∧ (r = m ∨ ∃ p ∈ l, p.2 = t ∧ r = p.1) := by
  induction l generalizing m with
  | nil => simp
  | cons q qs ih =>
    simp only [List.foldl_cons]
    obtain ⟨h1, h2, h3⟩ := ih (if q.2 = t then (if q.1 < m then q.1 else m) else m)
    refine ⟨?_, ?_, ?_⟩
    · refine Nat.le_trans h1 ?_; split <;> (try split) <;> omega
    · intro p hp hpt
      rcases List.mem_cons.1 hp with h | h
      · subst h
        refine Nat.le_trans h1 ?_
        rw [if_pos hpt]; split <;> omega
      · exact h2 p h hpt
    · rcases h3 with h | ⟨p, hp, hpt, he⟩
      · by_cases hq : q.2 = t
        · by_cases hlt : q.1 < m
          · right; exact ⟨q, by simp, hq, by rw [h, if_pos hq, if_pos hlt]⟩
          · left; rw [h, if_pos hq, if_neg hlt]
        · left; rw [h, if_neg hq]
      · right; exact ⟨p, by simp [hp], hpt, he⟩

/-- every axis mapped to result axis `i` bounds its length, and one of them attains it -/
theorem transAxis_spec (rs : List Nat) (al : List Int) (i : Nat) (hl : al.length = rs.length)
    (hm : (i : Int) + 1 ∈ al) :
    (∀ k, k < rs.length → al.getD k 0 = (i : Int) + 1 → transAxis rs al i ≤ rs.getD k 0) ∧
    (∃ k, k < rs.length ∧ al.getD k 0 = (i : Int) + 1 ∧ transAxis rs al i = rs.getD k 0) := by
  have key := foldl_min_aux (rs.zip al) ((i : Int) + 1) (rs.foldl (fun m n => if m < n then n else m) 0)
  have hzip : ∀ k, k < rs.length → (rs.getD k 0, al.getD k 0) ∈ rs.zip al := by
    intro k hk
    have : (rs.zip al)[k]? = some (rs.getD k 0, al.getD k 0) := by
      rw [List.getElem?_zip_eq_some]
      simp [List.getD, hk, hl]
    exact List.mem_of_getElem? this
  have hzip' : ∀ p ∈ rs.zip al, ∃ k, k < rs.length ∧ p = (rs.getD k 0, al.getD k 0) := by
    intro p hp
    obtain ⟨k, hk⟩ := List.getElem?_of_mem hp
    rw [List.getElem?_zip_eq_some] at hk
    have : k < rs.length := (List.getElem?_eq_some_iff.1 hk.1).1
    refine ⟨k, this, ?_⟩
    simp [List.getD, hk.1, hk.2]
  refine ⟨?_, ?_⟩
  · intro k hk he
    exact key.2.1 _ (hzip k hk) he
  · obtain ⟨k, he⟩ := List.getElem?_of_mem hm
    have hk := (List.getElem?_eq_some_iff.1 he).1
    have hk' : k < rs.length := by omega
    rcases key.2.2 with h | ⟨p, hp, hpt, hpe⟩
    · refine ⟨k, hk', by simp [List.getD, he], ?_⟩
      have h1 := key.2.1 _ (hzip k hk') (by simp [List.getD, he])
      have h2 := (foldl_max_ge rs 0).2 (rs.getD k 0) (by simp [List.getD, hk'])
      simp only at h1
      unfold transAxis
      omega
    · obtain ⟨j, hj, hpe'⟩ := hzip' p hp
      refine ⟨j, hj, ?_, ?_⟩
      · rw [hpe'] at hpt; exact hpt
      · unfold transAxis; rw [hpe, hpe']

/-- 1-based axis vector as the code uses it -/
theorem transposeIndexes_ok (origin : Int) (L : Option (List Int)) (rs : List Nat) (al : List Int)
    (hal : al = (if origin = 0 then (transposeL origin L rs.length).map (· + 1) else transposeL origin L rs.length))
    (hl : al.length = rs.length) (hrs : rs ≠ []) (hpos : ∀ v ∈ al, 1 ≤ v)
    (hcov : ∀ v : Int, 1 ≤ v → v ≤ maxL al → v ∈ al) :
    let shape := (List.range (maxL al).toNat).map (transAxis rs al)
    shape ≠ [] ∧
    transposeIndexes origin L rs = .ok ((List.range (size shape)).map
      (fun i => flat rs (al.map (fun n => (unflat shape i).getD (n - 1).toNat 0))), shape) ∧
    ∀ j, InB shape j → InB rs (al.map (fun n => j.getD (n - 1).toNat 0)) := by
  intro shape
  have hmx := maxL_aux al (-1)
  have hmem : al ≠ [] := by
    intro h; rw [h] at hl; simp at hl; exact hrs (List.length_eq_zero_iff.1 hl.symm)
  obtain ⟨v0, hv0⟩ := List.exists_mem_of_ne_nil al hmem
  have hmpos : 1 ≤ maxL al := Int.le_trans (hpos v0 hv0) (hmx.2.1 v0 hv0)
  have hshl : shape.length = (maxL al).toNat := by simp [shape]
  have hshne : shape ≠ [] := by intro h; rw [h] at hshl; simp at hshl; omega
  have hbound : ∀ j, InB shape j → InB rs (al.map (fun n => j.getD (n - 1).toNat 0)) := by
    intro j hj
    rw [InB_iff]
    refine ⟨by simpa using hl, ?_⟩
    intro k hk
    have hka : k < al.length := by omega
    have hkm : al[k] ∈ al := List.getElem_mem hka
    have h1 := hpos _ hkm
    have h2 : al[k] ≤ maxL al := hmx.2.1 _ hkm
    have hlt : (al[k] - 1).toNat < shape.length := by rw [hshl]; omega
    have h3 := hj.getD_lt hlt
    have h4 : shape.getD (al[k] - 1).toNat 0 = transAxis rs al (al[k] - 1).toNat := by
      simp only [shape, List.getD]
      rw [List.getElem?_map, List.getElem?_range (by omega)]
      rfl
    have hcast : (((al[k] - 1).toNat : Nat) : Int) + 1 = al[k] := by omega
    have h5 := (transAxis_spec rs al (al[k] - 1).toNat hl (by rw [hcast]; exact hkm)).1 k hk
      (by rw [hcast]; simp [List.getD, hka])
    rw [h4] at h3
    have : (al.map (fun n => j.getD (n - 1).toNat 0)).getD k 0 = j.getD (al[k] - 1).toNat 0 := by
      simp [List.getD, hka]
    rw [this]
    omega
  refine ⟨hshne, ?_, hbound⟩
  unfold transposeIndexes
  have hll : (transposeL origin L rs.length).length = rs.length := by
    rw [hal] at hl; split at hl
    · simpa using hl
    · exact hl
  rw [if_neg (by omega)]
  simp only [← hal]
  rw [if_neg (by simp only [List.any_eq_true, not_exists, not_and]; intro v hv; have := hpos v hv; simp; omega)]
  rw [if_neg (by
    simp only [List.all_eq_true, Classical.not_not, List.mem_range, List.contains_iff_mem]
    intro i hi
    apply hcov <;> omega)]
  rw [if_neg (by omega)]
  have hprod : prod shape = size shape := prod_eq_size hshne
  have hfl : forLoop (fun i => do
          let sidx := icIndexes (strides shape) i
          let ridx ← al.mapM (fun (n : Int) => sliceAt sidx (n - 1).toNat)
          return icIndex (strides rs) ridx) (size shape) 0 = .ok ((List.range (size shape)).map
      (fun i => flat rs (al.map (fun n => (unflat shape i).getD (n - 1).toNat 0)))) := by
    apply forLoop_ok
    intro i hi
    rw [icIndexes_strides]
    have : al.mapM (fun n => sliceAt (unflat shape i) (n - 1).toNat) =
        (.ok (al.map (fun n => (unflat shape i).getD (n - 1).toNat 0)) : Res (List Nat)) := by
      apply mapM_ok
      intro n hn
      have h1 := hpos _ hn
      have h2 : n ≤ maxL al := hmx.2.1 _ hn
      rw [sliceAt_eq_ok]
      have : (n - 1).toNat < (unflat shape i).length := by rw [unflat_length, hshl]; omega
      simp only [List.getD]
      rw [List.getElem?_eq_getElem this]; rfl
    simp only [this, bind, Except.bind, pure, Except.pure]
    rw [icIndex_strides (by simpa using hl)]
  show (do
        let (ics, _) ← newIdxConverter shape
        let (icr, _) ← newIdxConverter rs
        let fl ← forLoop (fun i => do
          let sidx := icIndexes ics i
          let ridx ← al.mapM (fun (n : Int) => sliceAt sidx (n - 1).toNat)
          return icIndex icr ridx) (prod shape) 0
        return (fl, shape)) = _
  simp only [newIdxConverter_ok hshne, newIdxConverter_ok hrs, hprod]
  simp only [bind, Except.bind] at hfl ⊢
  rw [hfl]
  rfl

end Iv

import Verif.Props.Scalar
import Verif.Lemmas.Lines
/-
C33, scalar functions with an axis specification `L f[X] R`.
-/
namespace Iv
variable {α : Type}

theorem flat_filter (ps : List Nat) (p : Nat → Bool) (s i : Nat → Nat) :
    flat (ps.map (fun k => if p k then s k else 1)) (ps.map (fun k => if p k then i k else 0)) =
      flat ((ps.filter p).map s) ((ps.filter p).map i) ∧
    size (ps.map (fun k => if p k then s k else 1)) = size ((ps.filter p).map s) := by
  induction ps with
  | nil => exact ⟨rfl, rfl⟩
  | cons k ps ih =>
    obtain ⟨h1, h2⟩ := ih
    by_cases h : p k
    · simp only [List.map_cons, h, if_true, List.filter_cons_of_pos, flat, size, h1, h2, and_self]
    · rw [List.filter_cons_of_neg h]
      simp only [List.map_cons, h, flat, size, h1, h2]
      simp

theorem filter_range {xs : List Nat} {n : Nat} (hx : xs.Pairwise (· < ·)) (hn : ∀ x ∈ xs, x < n) :
    (List.range n).filter (fun k => decide (k ∈ xs)) = xs := by
  apply List.Perm.eq_of_pairwise (le := (· < ·))
  · intro a b _ _ h1 h2; omega
  · exact List.Pairwise.filter _ List.pairwise_lt_range
  · exact hx
  · rw [List.perm_ext_iff_of_nodup]
    · intro a
      simp only [List.mem_filter, List.mem_range, decide_eq_true_eq]
      exact ⟨fun h => h.2, fun h => ⟨hn a h, h⟩⟩
    · exact List.Pairwise.filter _ List.nodup_range
    · exact hx.imp (fun h => Nat.ne_of_lt h)

theorem sortInsert_perm (x : Int) (l : List Int) : (sortInsert x l).Perm (x :: l) := by
  induction l with
  | nil => exact List.Perm.refl _
  | cons y ys ih =>
    rw [sortInsert]
    split
    · exact List.Perm.refl _
    · exact (ih.cons y).trans (List.Perm.swap x y ys)

theorem sortInts_perm (l : List Int) : (sortInts l).Perm l := by
  induction l with
  | nil => exact List.Perm.refl _
  | cons x xs ih => exact (sortInsert_perm x _).trans (ih.cons x)

theorem sortInsert_sorted (x : Int) (l : List Int) (h : l.Pairwise (· ≤ ·)) : (sortInsert x l).Pairwise (· ≤ ·) := by
  induction l with
  | nil => simp [sortInsert]
  | cons y ys ih =>
    rw [List.pairwise_cons] at h
    rw [sortInsert]
    split
    · rename_i hxy
      rw [List.pairwise_cons]
      refine ⟨?_, List.pairwise_cons.2 h⟩
      intro z hz
      rcases List.mem_cons.1 hz with rfl | hz
      · exact hxy
      · have := h.1 z hz; omega
    · rw [List.pairwise_cons]
      refine ⟨?_, ih h.2⟩
      intro z hz
      rcases List.mem_cons.1 ((sortInsert_perm x ys).mem_iff.1 hz) with rfl | hz
      · omega
      · exact h.1 z hz

theorem sortInts_sorted (l : List Int) : (sortInts l).Pairwise (· ≤ ·) := by
  induction l with
  | nil => simp [sortInts]
  | cons x xs ih => exact sortInsert_sorted x _ ih

theorem sortInts_axes {X : List Int} {xs : List Nat} {o : Int} (hx : xs.Pairwise (· < ·))
    (hX : X.Perm (xs.map (fun n : Nat => (n : Int) + o))) :
    (sortInts X).map (· - o) = xs.map Int.ofNat := by
  have h : sortInts X = xs.map (fun n : Nat => (n : Int) + o) := by
    apply List.Perm.eq_of_pairwise (le := (· ≤ ·))
    · intro a b _ _ h1 h2; omega
    · exact sortInts_sorted X
    · rw [List.pairwise_map]
      exact hx.imp (fun h => by omega)
    · exact (sortInts_perm _).trans hX
  rw [h, List.map_map]
  apply List.map_congr_left
  intro n _
  simp

theorem rightShape_aux (n : Nat) (xs : List Nat) (g : Nat → Nat) (s : List Nat) (hs : s.length = n) :
    (((xs.map Int.ofNat).zip (xs.map g)).foldl (fun s p => s.set p.1.toNat p.2) s) =
      (List.range n).map (fun k => if k ∈ xs then g k else s.getD k 0) := by
  induction xs generalizing s with
  | nil =>
    simp only [List.map_nil, List.zip_nil_left, List.foldl_nil, List.not_mem_nil, if_false]
    rw [← hs]; exact list_eq_range_getD _ _ _ rfl
  | cons x xs ih =>
    simp only [List.map_cons, List.zip_cons_cons, List.foldl_cons]
    rw [ih _ (by simpa using hs)]
    apply List.map_congr_left
    intro k hk
    have hk' := List.mem_range.1 hk
    by_cases h : k ∈ xs
    · simp [h]
    · rw [if_neg h, getD_set]
      by_cases hkx : k = x
      · subst hkx
        rw [if_pos ⟨rfl, by show Int.toNat (Int.ofNat k) < _; simp; omega⟩, if_pos (by simp)]
      · rw [if_neg (by rintro ⟨h1, _⟩; exact hkx (by first | exact h1 | exact h1.symm)), if_neg (by simp [hkx, h])]

theorem rightShape_eq (n : Nat) (xs : List Nat) (g : Nat → Nat) :
    rightShape n (xs.map g) (xs.map Int.ofNat) = (List.range n).map (fun k => if k ∈ xs then g k else 1) := by
  unfold rightShape
  rw [rightShape_aux n xs g _ (by simp)]
  apply List.map_congr_left
  intro k hk
  have hk' := List.mem_range.1 hk
  simp [List.getD, hk']

theorem axisCheck_iff (ls rs : List Nat) (i : Nat) (prev : Option Int) (x : List Int) :
    axisCheck ls rs i prev x = true ↔
      (∀ (j : Nat) (n : Int), x[j]? = some n → 0 ≤ n ∧ n < ls.length ∧ ls.getD n.toNat 0 = rs.getD (i + j) 0) ∧
      (∀ n : Int, x[0]? = some n → prev ≠ some n) ∧ (∀ (j : Nat) (n : Int), x[j]? = some n → x[j + 1]? ≠ some n) := by
  induction x generalizing i prev with
  | nil => simp [axisCheck]
  | cons n x ih =>
    rw [axisCheck]
    by_cases h1 : n < 0 ∨ n ≥ (ls.length : Int)
    · rw [if_pos h1]
      simp only [Bool.false_eq_true, false_iff]
      rintro ⟨a1, _⟩
      have := a1 0 n rfl
      omega
    · rw [if_neg h1]
      by_cases h2 : prev = some n
      · rw [if_pos h2]
        simp only [Bool.false_eq_true, false_iff]
        rintro ⟨_, a2, _⟩
        exact a2 n rfl h2
      · rw [if_neg h2]
        by_cases h3 : ls.getD n.toNat 0 ≠ rs.getD i 0
        · rw [if_pos h3]
          simp only [Bool.false_eq_true, false_iff]
          rintro ⟨a1, _⟩
          exact h3 (a1 0 n rfl).2.2
        · rw [if_neg h3, ih]
          constructor
          · rintro ⟨a1, a2, a3⟩
            refine ⟨?_, ?_, ?_⟩
            · intro j n' hn'
              cases j with
              | zero => simp at hn'; subst hn'; simp at h3; exact ⟨by omega, by omega, by simpa using h3⟩
              | succ j =>
                have := a1 j n' (by simpa using hn')
                rw [show i + (j + 1) = i + 1 + j by omega]; exact this
            · intro n' hn'; simp at hn'; subst hn'; exact h2
            · intro j n' hn'
              cases j with
              | zero =>
                simp at hn'; subst hn'
                intro hc
                exact a2 n (by simpa using hc) rfl
              | succ j => simpa using a3 j n' (by simpa using hn')
          · rintro ⟨a1, a2, a3⟩
            refine ⟨?_, ?_, ?_⟩
            · intro j n' hn'
              have := a1 (j + 1) n' (by simpa using hn')
              rw [show i + 1 + j = i + (j + 1) by omega]; exact this
            · intro n' hn' hc
              injection hc with hc
              subst hc
              exact a3 0 n rfl (by simpa using hn')
            · intro j n' hn'
              simpa using a3 (j + 1) n' (by simpa using hn')

/-- the element of `b` belonging to index `idx` of the larger array: its components on the axes `xs` -/
def Arr.at2 (f : α → α → Res α) (a b : Arr α) (i j : List Nat) : Res α :=
  match a.get? i, b.get? j with
  | some x, some y => f x y
  | _, _ => .error .panic

theorem arrayAxis_core (f : α → α → Res α) (flip : Bool) (a b : Arr α) (ha : NonEmpty a) (hb : b.WF)
    (xs : List Nat) (hx : xs.Pairwise (· < ·)) (hn : ∀ x ∈ xs, x < a.shape.length)
    (hs : b.shape = xs.map (fun k => a.shape.getD k 0)) :
    (do let (ic, _) ← newIdxConverter (rightShape a.shape.length b.shape (xs.map Int.ofNat))
        arrayAxisLoop f flip a b (rightShape a.shape.length b.shape (xs.map Int.ofNat)) ic) =
      (allIdx a.shape).mapM (fun idx => Arr.at2 (fun x y => if flip then f y x else f x y) a b idx (xs.map (fun k => idx.getD k 0))) := by
  have hrs : rightShape a.shape.length b.shape (xs.map Int.ofNat) =
      (List.range a.shape.length).map (fun k => if k ∈ xs then a.shape.getD k 0 else 1) := by
    rw [hs]; exact rightShape_eq _ _ _
  have hne : rightShape a.shape.length b.shape (xs.map Int.ofNat) ≠ [] := by
    rw [hrs]; intro h
    have := congrArg List.length h
    simp at this
    exact ha.2.2 this
  rw [newIdxConverter_ok hne]
  simp only [bind, Except.bind]
  unfold arrayAxisLoop
  rw [prod_eq_size ha.2.2, odoLoop_eq_M, odoLoopM_eq]
  apply mapM_congr'
  intro idx hidx
  have hin := mem_allIdx.1 hidx
  have hil := hin.length_eq
  have hga : a.get? idx = a.data[flat a.shape idx]? := Arr.get?_of_inB hin
  have hfl : flat a.shape idx < a.data.length := by rw [ha.1]; exact flat_lt hin
  have hclamp : clampIdx (rightShape a.shape.length b.shape (xs.map Int.ofNat)) idx =
      (List.range a.shape.length).map (fun k => if k ∈ xs then idx.getD k 0 else 0) := by
    rw [hrs]
    unfold clampIdx
    apply List.ext_getElem?
    intro k
    by_cases hk : k < a.shape.length
    · have hki : k < idx.length := by omega
      have hlt := hin.getD_lt hk
      rw [List.getElem?_map, List.getElem?_map, List.getElem?_range hk]
      rw [List.getElem?_eq_getElem (by simp; omega), List.getElem_zip]
      simp only [Option.map_some, List.getElem_map, List.getElem_range]
      rw [getD_eq_getElem _ _ hki] at *
      congr 1
      by_cases hkx : k ∈ xs
      · rw [if_pos hkx, if_pos hkx, if_neg (by omega)]
      · rw [if_neg hkx, if_neg hkx]
        split
        · rfl
        · omega
    · rw [List.getElem?_eq_none (by simp; omega), List.getElem?_eq_none (by simp; omega)]
  have hfilt := filter_range hx hn
  have hflat := (flat_filter (List.range a.shape.length) (fun k => decide (k ∈ xs)) (fun k => a.shape.getD k 0) (fun k => idx.getD k 0)).1
  rw [hfilt] at hflat
  simp only [decide_eq_true_eq] at hflat
  have hinb : InB b.shape (xs.map (fun k => idx.getD k 0)) := by
    rw [hs, InB_iff]
    refine ⟨by simp, ?_⟩
    intro j hj
    have hjx : j < xs.length := by simpa using hj
    rw [getD_eq_getElem _ _ (by simpa using hjx), getD_eq_getElem _ _ (by simpa using hjx)]
    simp only [List.getElem_map]
    exact hin.getD_lt (hn _ (List.getElem_mem _))
  have hidxb : icIndex (strides (rightShape a.shape.length b.shape (xs.map Int.ofNat)))
      (clampIdx (rightShape a.shape.length b.shape (xs.map Int.ofNat)) idx) = flat b.shape (xs.map (fun k => idx.getD k 0)) := by
    rw [icIndex_strides (by rw [hclamp, hrs]; simp), hclamp, hrs, hs, ← hflat]
  have hgb : b.get? (xs.map (fun k => idx.getD k 0)) = b.data[flat b.shape (xs.map (fun k => idx.getD k 0))]? := Arr.get?_of_inB hinb
  have hflb : flat b.shape (xs.map (fun k => idx.getD k 0)) < b.data.length := by rw [hb]; exact flat_lt hinb
  rw [hidxb, sliceAt_ok hfl, sliceAt_ok hflb]
  unfold Arr.at2
  rw [hga, hgb, List.getElem?_eq_getElem hfl, List.getElem?_eq_getElem hflb]
  rfl

/-- C33 with axes: if the axes `X` (in any order) name distinct axes `xs` of the higher-ranked argument and
the lower-ranked argument has just these axis lengths, the element at index `idx` is `f` of the element at
`idx` and the element of the other argument at the components of `idx` on these axes. -/
theorem C33_axis (uk : List α → Kind) (f : α → α → Res α) (origin : Int) (X : List Int) (l r : Arr α)
    (hl : NonEmpty l) (hr : NonEmpty r) (xs : List Nat) (hx : xs.Pairwise (· < ·))
    (hX : X.Perm (xs.map (fun n : Nat => (n : Int) + origin))) :
    (r.shape.length ≤ l.shape.length → (∀ x ∈ xs, x < l.shape.length) → r.shape = xs.map (fun k => l.shape.getD k 0) →
      arrayAxis uk f origin X l r = (do
        let d ← (allIdx l.shape).mapM (fun idx => Arr.at2 f l r idx (xs.map (fun k => idx.getD k 0)))
        return .arr (uk d) ⟨l.shape, d⟩)) ∧
    (l.shape.length < r.shape.length → (∀ x ∈ xs, x < r.shape.length) → l.shape = xs.map (fun k => r.shape.getD k 0) →
      arrayAxis uk f origin X l r = (do
        let d ← (allIdx r.shape).mapM (fun idx => Arr.at2 f l r (xs.map (fun k => idx.getD k 0)) idx)
        return .arr (uk d) ⟨r.shape, d⟩)) := by
  have hck : ∀ a b : Arr α, (∀ x ∈ xs, x < a.shape.length) → b.shape = xs.map (fun k => a.shape.getD k 0) →
      axisCheck a.shape b.shape 0 none (xs.map Int.ofNat) = true := by
    intro a b h1 h2
    rw [axisCheck_iff]
    refine ⟨?_, by simp, ?_⟩
    · intro j n hj
      rw [List.getElem?_map] at hj
      obtain ⟨k, hk, rfl⟩ := Option.map_eq_some_iff.1 hj
      have hkm := List.mem_of_getElem? hk
      refine ⟨Int.natCast_nonneg _, by have := h1 k hkm; show (k : Int) < _; omega, ?_⟩
      rw [h2]
      simp [List.getD, hk]
    · intro j n hj hj1
      rw [List.getElem?_map] at hj hj1
      obtain ⟨k, hk, rfl⟩ := Option.map_eq_some_iff.1 hj
      obtain ⟨k', hk', he⟩ := Option.map_eq_some_iff.1 hj1
      have hkk : k' = k := by injection he
      subst hkk
      have := List.pairwise_iff_getElem.1 hx j (j + 1) (List.getElem?_eq_some_iff.1 hk).1 (List.getElem?_eq_some_iff.1 hk').1 (by omega)
      rw [(List.getElem?_eq_some_iff.1 hk).2, (List.getElem?_eq_some_iff.1 hk').2] at this
      omega
  constructor
  · intro hle hn hs
    have hflip : decide (l.shape.length < r.shape.length) = false := by simp; omega
    unfold arrayAxis
    simp only [hflip, Bool.false_eq_true, if_false, sortInts_axes hx hX, ne_eq]
    rw [if_neg (by simp [hs]), if_neg (by rw [hck l r hn hs]; simp)]
    have := arrayAxis_core f false l r hl hr.1 xs hx hn hs
    simp only [Bool.false_eq_true, if_false] at this
    rw [← this, bind_assoc]
  · intro hlt hn hs
    have hflip : decide (l.shape.length < r.shape.length) = true := by simp; omega
    unfold arrayAxis
    simp only [hflip, if_true, sortInts_axes hx hX, ne_eq]
    rw [if_neg (by simp [hs]), if_neg (by rw [hck r l hn hs]; simp)]
    have := arrayAxis_core f true r l hr hl.1 xs hx hn hs
    simp only [if_true] at this
    rw [← bind_assoc, this]
    congr 1
    apply mapM_congr'
    intro idx _
    unfold Arr.at2
    cases r.get? idx <;> cases l.get? (xs.map (fun k => idx.getD k 0)) <;> rfl

/-- C33 with axes: as many axes as the lower rank are needed. -/
theorem C33_axis_reject (uk : List α → Kind) (f : α → α → Res α) (origin : Int) (X : List Int) (l r : Arr α)
    (h : X.length ≠ min l.shape.length r.shape.length) : arrayAxis uk f origin X l r = .error .err := by
  unfold arrayAxis
  have hl : ((sortInts X).map (· - origin)).length = X.length := by rw [List.length_map, (sortInts_perm X).length_eq]
  by_cases hf : l.shape.length < r.shape.length
  · simp only [hf, decide_true, if_true]
    rw [if_pos (by rw [hl]; omega)]
  · simp only [hf, decide_false, Bool.false_eq_true, if_false]
    rw [if_pos (by rw [hl]; omega)]

example : arrayAxis (α := Int) (fun _ => .int) (fun x y => .ok (x + y)) 1 [1] ⟨[2, 3], [1, 2, 3, 4, 5, 6]⟩ ⟨[2], [10, 20]⟩
    = .ok (.arr .int ⟨[2, 3], [11, 12, 13, 24, 25, 26]⟩) := by decide

end Iv

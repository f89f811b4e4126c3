import Verif.Lemmas.Transpose
/-
C10, C11: transpose.
-/
namespace Iv

/-- `L` is a valid axis vector for an array of rank `n`: one item per axis, none below the origin,
and every integer from the origin up to each item occurs. -/
def ValidAxes (origin : Int) (n : Nat) (L : List Int) : Prop :=
  L.length = n ∧ (∀ v ∈ L, origin ≤ v) ∧ ∀ m ∈ L, ∀ v, origin ≤ v → v ≤ m → v ∈ L

theorem transpose_core {α} (origin : Int) (ho : origin = 0 ∨ origin = 1) (Lo : Option (List Int)) (a : Arr α)
    (hw : a.WF) (hr : a.shape ≠ []) (L : List Int) (hL : L = transposeL origin Lo a.shape.length)
    (hv : ValidAxes origin a.shape.length L) :
    ∃ r, transposeArr origin Lo a = .ok r ∧ r.WF ∧
      (∀ i : Nat, i < r.shape.length ↔ (i : Int) + origin ∈ L) ∧
      (∀ i : Nat, i < r.shape.length →
        (∀ k, k < a.shape.length → L.getD k 0 = (i : Int) + origin → r.shape.getD i 0 ≤ a.shape.getD k 0) ∧
        (∃ k, k < a.shape.length ∧ L.getD k 0 = (i : Int) + origin ∧ r.shape.getD i 0 = a.shape.getD k 0)) ∧
      ∀ j, InB r.shape j →
        InB a.shape (L.map (fun l => j.getD (l - origin).toNat 0)) ∧
        r.get? j = a.get? (L.map (fun l => j.getD (l - origin).toNat 0)) := by
  obtain ⟨hv1, hv2, hv3⟩ := hv
  -- the vector the code works with
  obtain ⟨al, hal⟩ : ∃ al, al = (if origin = 0 then (transposeL origin Lo a.shape.length).map (· + 1) else transposeL origin Lo a.shape.length) := ⟨_, rfl⟩
  have halL : al = L.map (fun l => l - origin + 1) := by
    rw [hal, ← hL]
    rcases ho with h | h
    · rw [if_pos h]; apply List.map_congr_left; intro x _; omega
    · rw [if_neg (by omega)]
      conv => lhs; rw [← List.map_id L]
      apply List.map_congr_left; intro x _; simp; omega
  have hmemal : ∀ v, v ∈ al ↔ v - 1 + origin ∈ L := by
    intro v
    rw [halL, List.mem_map]
    constructor
    · rintro ⟨l, hl, he⟩
      have : v - 1 + origin = l := by omega
      rw [this]; exact hl
    · intro h
      exact ⟨_, h, by omega⟩
  have hlen : al.length = a.shape.length := by rw [halL]; simpa using hv1
  have hne : al ≠ [] := by
    intro h; rw [h] at hlen; simp at hlen; exact hr (List.length_eq_zero_iff.1 hlen.symm)
  have hpos : ∀ v ∈ al, 1 ≤ v := by
    intro v hv
    have := hv2 _ ((hmemal v).1 hv); omega
  have hmax := maxL_aux al (-1)
  have hmaxmem : maxL al ∈ al := by
    rcases hmax.2.2 with h | h
    · obtain ⟨v0, hv0⟩ := List.exists_mem_of_ne_nil al hne
      have h1 := hmax.2.1 v0 hv0
      have h2 := hpos v0 hv0
      rw [h] at h1
      omega
    · exact h
  have hcov : ∀ v : Int, 1 ≤ v → v ≤ maxL al → v ∈ al := by
    intro v h1 h2
    rw [hmemal]
    exact hv3 _ ((hmemal _).1 hmaxmem) _ (by omega) (by omega)
  obtain ⟨hsne, hti, hin⟩ := transposeIndexes_ok origin Lo a.shape al hal hlen hr hpos hcov
  let shape := (List.range (maxL al).toNat).map (transAxis a.shape al)
  have hmap : ∀ j : List Nat, al.map (fun n => j.getD (n - 1).toNat 0) =
      L.map (fun l => j.getD (l - origin).toNat 0) := by
    intro j
    rw [halL, List.map_map]
    apply List.map_congr_left
    intro l _
    simp only [Function.comp]
    congr 2; omega
  have hshlen : shape.length = (maxL al).toNat := by simp [shape]
  have hdata : ((List.range (size shape)).map
      (fun i => flat a.shape (al.map (fun n => (unflat shape i).getD (n - 1).toNat 0)))).mapM
        (fun k => sliceAt a.data k) =
      ((.ok ((List.range (size shape)).map (fun i =>
        (a.data[flat a.shape (L.map (fun l => (unflat shape i).getD (l - origin).toNat 0))]?)))) : Res (List (Option α))).bind
        (fun l => .ok (l.filterMap id)) := by
    have hb : ∀ i, i < size shape → flat a.shape (L.map (fun l => (unflat shape i).getD (l - origin).toNat 0)) < a.data.length := by
      intro i hi
      rw [hw, ← hmap]
      exact flat_lt (hin _ (unflat_inB hi))
    simp only [hmap]
    have : ∀ (xs : List Nat), (∀ i ∈ xs, i < size shape) →
      (xs.map (fun i => flat a.shape (L.map (fun l => (unflat shape i).getD (l - origin).toNat 0)))).mapM
        (fun k => sliceAt a.data k) = .ok ((xs.map (fun i =>
        (a.data[flat a.shape (L.map (fun l => (unflat shape i).getD (l - origin).toNat 0))]?))).filterMap id) := by
      intro xs hxs
      induction xs with
      | nil => rfl
      | cons x xs ih =>
        have hx := hb x (hxs x (by simp))
        rw [List.map_cons, List.mapM_cons, sliceAt_ok hx, ih (fun i hi => hxs i (by simp [hi]))]
        simp only [List.map_cons, List.getElem?_eq_getElem hx]
        rfl
    exact this _ (fun i hi => List.mem_range.1 hi)
  have hlenf : ∀ (xs : List Nat), (∀ i ∈ xs, i < size shape) → ∀ p : Nat,
      ((xs.map (fun i =>
        (a.data[flat a.shape (L.map (fun l => (unflat shape i).getD (l - origin).toNat 0))]?))).filterMap id)[p]? =
      xs[p]?.bind (fun i => a.data[flat a.shape (L.map (fun l => (unflat shape i).getD (l - origin).toNat 0))]?) ∧
      ((xs.map (fun i =>
        (a.data[flat a.shape (L.map (fun l => (unflat shape i).getD (l - origin).toNat 0))]?))).filterMap id).length = xs.length := by
    intro xs hxs
    induction xs with
    | nil => intro p; simp
    | cons x xs ih =>
      have hx : flat a.shape (L.map (fun l => (unflat shape x).getD (l - origin).toNat 0)) < a.data.length := by
        rw [hw, ← hmap]
        exact flat_lt (hin _ (unflat_inB (hxs x (by simp))))
      intro p
      have ih' := ih (fun i hi => hxs i (by simp [hi]))
      simp only [List.map_cons, List.getElem?_eq_getElem hx, List.filterMap_cons, id, List.length_cons]
      refine ⟨?_, by rw [(ih' 0).2]⟩
      cases p with
      | zero => simp [List.getElem?_eq_getElem hx]
      | succ p => simpa using (ih' p).1
  have hr0 := fun p => hlenf (List.range (size shape)) (fun i hi => List.mem_range.1 hi) p
  refine ⟨⟨shape, (((List.range (size shape)).map (fun i =>
        (a.data[flat a.shape (L.map (fun l => (unflat shape i).getD (l - origin).toNat 0))]?))).filterMap id)⟩, ?_, ?_, ?_, ?_, ?_⟩
  · unfold transposeArr
    rw [hti]
    simp only [bind, Except.bind] at hdata ⊢
    rw [hdata]
    rfl
  · show _ = _
    simp only
    rw [(hr0 0).2]; simp
  · intro i
    show i < shape.length ↔ _
    rw [hshlen]
    constructor
    · intro h
      have := (hmemal ((i : Int) + 1)).1 (hcov _ (by omega) (by omega))
      have e : (i : Int) + 1 - 1 + origin = i + origin := by omega
      rwa [e] at this
    · intro h
      have : (i : Int) + 1 ∈ al := by
        rw [hmemal]
        have e : (i : Int) + 1 - 1 + origin = i + origin := by omega
        rwa [e]
      have := hmax.2.1 _ this
      have : (i : Int) + 1 ≤ maxL al := this
      omega
  · intro i hi
    have hi' : i < (maxL al).toNat := by rw [← hshlen]; exact hi
    have hm : (i : Int) + 1 ∈ al := hcov _ (by omega) (by omega)
    have hs := transAxis_spec a.shape al i hlen hm
    have hsh : shape.getD i 0 = transAxis a.shape al i := by
      simp [shape, List.getD, hi']
    have hget : ∀ k, k < a.shape.length → (al.getD k 0 = (i : Int) + 1 ↔ L.getD k 0 = (i : Int) + origin) := by
      intro k hk
      have : k < L.length := by omega
      rw [halL]
      simp only [List.getD, List.getElem?_map, List.getElem?_eq_getElem this]
      simp
      constructor <;> intro h <;> omega
    show (∀ k, k < a.shape.length → L.getD k 0 = (i : Int) + origin → shape.getD i 0 ≤ a.shape.getD k 0) ∧
        (∃ k, k < a.shape.length ∧ L.getD k 0 = (i : Int) + origin ∧ shape.getD i 0 = a.shape.getD k 0)
    rw [hsh]
    refine ⟨fun k hk h => hs.1 k hk ((hget k hk).2 h), ?_⟩
    obtain ⟨k, hk, h1, h2⟩ := hs.2
    exact ⟨k, hk, (hget k hk).1 h1, h2⟩
  · intro j hj
    have hj' : InB shape j := hj
    have h1 := hin j hj'
    rw [hmap] at h1
    refine ⟨h1, ?_⟩
    rw [Arr.get?_of_inB h1, Arr.get?_of_inB (a := ⟨shape, _⟩) hj']
    simp only
    rw [(hr0 _).1, List.getElem?_range (flat_lt hj')]
    simp only [Option.bind_some]
    rw [unflat_flat hj']

/-- C11.  For a valid axis vector `L`: the result has one axis per distinct item of `L`; the length of
result axis `i` is the minimum of the lengths of the axes of `A` mapped to it; the element at `j` is
the element of `A` whose index along axis `a` is `j[L[a]]` (origin-adjusted). -/
theorem C11_dyadic_transpose {α} (origin : Int) (ho : origin = 0 ∨ origin = 1) (L : List Int) (a : Arr α)
    (hw : a.WF) (hr : a.shape ≠ []) (hv : ValidAxes origin a.shape.length L) :
    ∃ r, transposeArr origin (some L) a = .ok r ∧ r.WF ∧
      (∀ i : Nat, i < r.shape.length ↔ (i : Int) + origin ∈ L) ∧
      (∀ i : Nat, i < r.shape.length →
        (∀ k, k < a.shape.length → L.getD k 0 = (i : Int) + origin → r.shape.getD i 0 ≤ a.shape.getD k 0) ∧
        (∃ k, k < a.shape.length ∧ L.getD k 0 = (i : Int) + origin ∧ r.shape.getD i 0 = a.shape.getD k 0)) ∧
      ∀ j, InB r.shape j →
        InB a.shape (L.map (fun l => j.getD (l - origin).toNat 0)) ∧
        r.get? j = a.get? (L.map (fun l => j.getD (l - origin).toNat 0)) :=
  transpose_core origin ho (some L) a hw hr L rfl hv

/-- C11: every other axis vector is rejected (with an error, not a crash). -/
theorem C11_reject {α} (origin : Int) (ho : origin = 0 ∨ origin = 1) (L : List Int) (kd : Kind) (a : Arr α)
    (hr : a.shape ≠ []) (hv : ¬ ValidAxes origin a.shape.length L) :
    transpose origin (some L) (.arr kd a) = .error .err := by
  unfold transpose
  simp only
  by_cases hLe : L = []
  · subst hLe; rw [if_pos rfl]
  rw [if_neg (by simpa using hLe)]
  have key : transposeIndexes origin (some L) a.shape = .error .err := by
    unfold transposeIndexes
    have hTL : transposeL origin (some L) a.shape.length = L := rfl
    rw [hTL]
    by_cases h1 : L.length = a.shape.length
    rotate_left
    · rw [if_pos (show L.length ≠ a.shape.length from h1)]
    rw [if_neg (by omega)]
    obtain ⟨al, hal⟩ : ∃ al, al = (if origin = 0 then L.map (· + 1) else L) := ⟨_, rfl⟩
    simp only [← hal]
    have hmemal : ∀ v, v ∈ al ↔ v - 1 + origin ∈ L := by
      intro v
      rw [hal]
      rcases ho with h | h
      · rw [if_pos h, List.mem_map]
        constructor
        · rintro ⟨l, hl, he⟩
          have : v - 1 + origin = l := by omega
          rwa [this]
        · intro hm; exact ⟨_, hm, by omega⟩
      · rw [if_neg (by omega)]
        have : v - 1 + origin = v := by omega
        rw [this]
    by_cases h2 : al.any (· < 1)
    · rw [if_pos h2]
    rw [if_neg h2]
    by_cases h3 : (List.range (maxL al).toNat).all (fun i => al.contains ((i : Int) + 1))
    rotate_left
    · rw [if_pos h3]
    exfalso
    apply hv
    simp only [List.any_eq_true, not_exists, not_and, decide_eq_true_eq] at h2
    simp only [List.all_eq_true, List.mem_range, List.contains_iff_mem] at h3
    refine ⟨h1, ?_, ?_⟩
    · intro v hvm
      have := h2 (v + 1 - origin) ((hmemal _).2 (by have : v + 1 - origin - 1 + origin = v := by omega
                                                    rwa [this]))
      omega
    · intro m hm v hv1 hv2
      have hm' : m + 1 - origin ∈ al := (hmemal _).2 (by
        have : m + 1 - origin - 1 + origin = m := by omega
        rwa [this])
      have hle : m + 1 - origin ≤ maxL al := (maxL_aux al (-1)).2.1 _ hm'
      have h4 := h3 (v - origin).toNat (by omega)
      rw [hmemal] at h4
      have : ((v - origin).toNat : Int) + 1 - 1 + origin = v := by omega
      rwa [this] at h4
  have : transposeArr origin (some L) a = .error .err := by
    unfold transposeArr
    rw [key]
    rfl
  rw [this]
  rfl

/-- C11: the primitive applies the array function for any non-empty `L`. -/
theorem C11_primitive {α} (origin : Int) (L : List Int) (hL : L ≠ []) (kd : Kind) (a : Arr α) :
    transpose origin (some L) (.arr kd a) = (transposeArr origin (some L) a).map (Val.arr kd) := by
  unfold transpose
  simp only
  rw [if_neg (by simpa using hL)]
  cases transposeArr origin (some L) a <;> rfl

theorem transposeL_none_valid (origin : Int) (n : Nat) :
    ValidAxes origin n (transposeL origin none n) := by
  unfold transposeL
  refine ⟨by simp, ?_, ?_⟩
  · intro v hv
    simp only [List.mem_map, List.mem_range] at hv
    obtain ⟨i, hi, he⟩ := hv
    omega
  · intro m hm v h1 h2
    simp only [List.mem_map, List.mem_range] at hm ⊢
    obtain ⟨i, hi, he⟩ := hm
    exact ⟨((n : Int) - 1 - (v - origin)).toNat, by omega, by omega⟩

/-- C10.  `⍉A` has the reversed shape and `(⍉A)[j]` is `A[reverse j]`, at both origins. -/
theorem C10_transpose {α} (origin : Int) (ho : origin = 0 ∨ origin = 1) (kd : Kind) (a : Arr α)
    (hw : a.WF) (hr : a.shape ≠ []) :
    ∃ r, transpose origin none (.arr kd a) = .ok (.arr kd r) ∧ r.WF ∧ r.shape = a.shape.reverse ∧
      ∀ j, InB r.shape j → InB a.shape j.reverse ∧ r.get? j = a.get? j.reverse := by
  obtain ⟨r, h1, h2, h3, h4, h5⟩ := transpose_core origin ho none a hw hr _ rfl (transposeL_none_valid origin _)
  have hLget : ∀ k, k < a.shape.length →
      (transposeL origin none a.shape.length).getD k 0 = (a.shape.length : Int) - k - 1 + origin := by
    intro k hk
    simp [transposeL, List.getD, hk]
  have hrl : r.shape.length = a.shape.length := by
    have hiff : ∀ i : Nat, i < r.shape.length ↔ i < a.shape.length := by
      intro i
      rw [h3 i]
      simp only [transposeL, List.mem_map, List.mem_range]
      constructor
      · rintro ⟨k, hk, he⟩; omega
      · intro h; exact ⟨a.shape.length - 1 - i, by omega, by omega⟩
    have a1 := hiff r.shape.length
    have a2 := hiff a.shape.length
    omega
  have hsh : r.shape = a.shape.reverse := by
    apply List.ext_getElem (by simpa using hrl)
    intro i hi _
    obtain ⟨k, hk, he1, he2⟩ := (h4 i hi).2
    rw [hLget k hk] at he1
    have hki : k = a.shape.length - 1 - i := by omega
    have e1 : r.shape.getD i 0 = r.shape[i] := by simp [List.getD, hi]
    have e2 : a.shape.getD k 0 = a.shape[k] := by simp [List.getD, hk]
    rw [e1, e2] at he2
    rw [he2, List.getElem_reverse]
    congr 1
  have hrev : ∀ j, InB r.shape j →
      (transposeL origin none a.shape.length).map (fun l => j.getD (l - origin).toNat 0) = j.reverse := by
    intro j hj
    have hjl : j.length = a.shape.length := by rw [hj.length_eq, hrl]
    apply List.ext_getElem
    · simp [transposeL, hjl]
    · intro i hi1 hi2
      simp only [transposeL, List.length_map, List.length_range] at hi1
      simp only [transposeL, List.getElem_map, List.getElem_range, List.getElem_reverse]
      have e : ((a.shape.length : Int) - i - 1 + origin - origin).toNat = j.length - 1 - i := by omega
      rw [e]
      simp only [List.getD]
      rw [List.getElem?_eq_getElem (by omega)]
      rfl
  refine ⟨r, ?_, h2, hsh, ?_⟩
  · unfold transpose
    simp only [h1, bind, Except.bind, pure, Except.pure]
    rfl
  · intro j hj
    have := h5 j hj
    rw [hrev j hj] at this
    exact this

/-- C10: `⍉⍉A` is `A`. -/
theorem C10_involution {α} (origin : Int) (ho : origin = 0 ∨ origin = 1) (kd : Kind) (a : Arr α)
    (hw : a.WF) (hr : a.shape ≠ []) :
    (transpose origin none (.arr kd a)).bind (transpose origin none) = .ok (.arr kd a) := by
  obtain ⟨r, h1, h2, h3, h4⟩ := C10_transpose origin ho kd a hw hr
  obtain ⟨q, g1, g2, g3, g4⟩ := C10_transpose origin ho kd r h2 (by rw [h3]; simpa using hr)
  rw [h1]
  simp only [Except.bind]
  rw [g1]
  have : q = a := by
    apply Arr.ext_get g2 hw (by rw [g3, h3, List.reverse_reverse])
    intro i hi
    rw [(g4 i hi).2, (h4 i.reverse (g4 i hi).1).2, List.reverse_reverse]
  rw [this]

/-- "`⍉⍉A` is `A` for every array" is FALSE for the empty array: `⍉⍳0` crashes (`make([]int, -1)`). -/
theorem C10_empty_panics {α} (origin : Int) : transpose origin none (.empty : Val α) = .error .panic := by
  simp only [transpose, transposeIndexes, transposeL, List.length_nil, List.range_zero, List.map_nil]
  by_cases h : origin = 0 <;> simp [h, maxL] <;> rfl

example : (transpose 1 none (.arr .int ⟨[2, 3], [1, 2, 3, 4, 5, 6]⟩) : Res (Val Nat)) =
    .ok (.arr .int ⟨[3, 2], [1, 4, 2, 5, 3, 6]⟩) := by rfl
/-- a diagonal: both axes of a 3 3 matrix mapped to one result axis -/
example : (transpose 1 (some [1, 1]) (.arr .int ⟨[3, 3], [1, 2, 3, 4, 5, 6, 7, 8, 9]⟩) : Res (Val Nat)) =
    .ok (.arr .int ⟨[3], [1, 5, 9]⟩) := by rfl
example : ValidAxes 1 3 [2, 1, 2] := by
  refine ⟨rfl, by decide, ?_⟩
  intro m hm v h1 h2
  simp at hm
  have : v = 1 ∨ v = 2 := by omega
  rcases this with h | h <;> simp [h]

end Iv

import Verif.Lemmas.Expand
/-
C14, C15: replicate/compress and expand.
-/
namespace Iv

/-- Specification of replicate on a list: `|n|` copies of the item for a count `n ≥ 0`, `|n|` fills for
a negative count, in order. -/
def replSpec {β} (fill : β) : List Int → List β → List β
  | n :: ns, v :: vs => List.replicate n.natAbs (if 0 ≤ n then v else fill) ++ replSpec fill ns vs
  | _, _ => []

/-- Specification of expand on a list: a positive item of the left vector consumes the next item and
repeats it; an item that is not positive inserts `1⌈|n|` fills. -/
def expSpec {β} (fill : β) : List Int → List β → List β
  | [], _ => []
  | n :: ns, vs =>
    if 0 < n then match vs with
      | v :: vs => List.replicate n.toNat v ++ expSpec fill ns vs
      | [] => []
    else List.replicate (max 1 n.natAbs) fill ++ expSpec fill ns vs

/-- source position of every position of the result axis; `none` is a fill -/
def replPos (L : List Int) : List (Option Nat) := replSpec none L ((List.range L.length).map some)

theorem axisMap_spec {β} (fill : β) (L : List Int) (k : Nat) (f : Nat → β) :
    (axisMap L k).map (fun o => match o with | none => fill | some j => f j) =
      replSpec fill L ((List.range' k L.length).map f) := by
  induction L generalizing k with
  | nil => rfl
  | cons n ns ih =>
    simp only [axisMap, List.length_cons, List.range'_succ, List.map_cons, replSpec, List.map_append, ih]
    congr 1
    by_cases h : n > 0
    · rw [if_pos h, if_pos (by omega), List.map_replicate]
      congr 1; omega
    · rw [if_neg h]
      by_cases h2 : n < 0
      · rw [if_pos h2, if_neg (by omega), List.map_replicate]
        congr 1; omega
      · have : n = 0 := by omega
        subst this; simp

theorem axisMap_eq_replPos (L : List Int) : axisMap L 0 = replPos L := by
  have := axisMap_spec (none : Option Nat) L 0 some
  rw [← List.range_eq_range'] at this
  rw [replPos, ← this]
  conv => lhs; rw [← List.map_id (axisMap L 0)]
  apply List.map_congr_left
  intro o _
  cases o <;> rfl

/-- C14: the length of the result axis is the sum of the magnitudes of the counts. -/
theorem C14_length (L : List Int) : (replPos L).length = (L.map Int.natAbs).sum := by
  have : ∀ (ns : List Int) (vs : List (Option Nat)), vs.length = ns.length →
      (replSpec none ns vs).length = (ns.map Int.natAbs).sum := by
    intro ns
    induction ns with
    | nil => intro vs h; simp [replSpec]
    | cons n ns ih =>
      intro vs h
      cases vs with
      | nil => simp at h
      | cons v vs =>
        simp only [List.length_cons] at h
        simp [replSpec, ih vs (by omega)]
  exact this L _ (by simp)

/-- C14 on arrays.  `axis` is `k`, or counted from the end (`¯1` is the last axis).  The result axis
has the positions `replPos L`; a fill position holds `zero`, any other the element of the source
position. -/
theorem C14_replicate {α} (zero : α) (L : List Int) (a : Arr α) (k : Nat) (axis : Int) (hw : a.WF)
    (hk : k < a.shape.length) (hax : axis = k ∨ axis = (k : Int) - a.shape.length)
    (hL : L.length = a.shape.getD k 0) :
    ∃ r, replicateArr zero L a axis = .ok r ∧ r.WF ∧ r.shape = a.shape.set k (replPos L).length ∧
      ∀ idx, InB r.shape idx → ∃ o, (replPos L)[idx.getD k 0]? = some o ∧
        match o with
        | none => r.get? idx = some zero
        | some j => InB a.shape (idx.set k j) ∧ r.get? idx = a.get? (idx.set k j) := by
  rw [← axisMap_eq_replPos]
  obtain ⟨r, h1, h2, h3, h4⟩ := replicate_core zero L a k hw hk hL
  refine ⟨r, ?_, h2, h3, h4⟩
  unfold replicateArr
  rw [commonReplExp_ok L a axis k hk hax (by omega)]
  simp only [bind, Except.bind, sliceAt_getD a.shape 0 hk]
  rw [extendL_of_ne (by omega)]
  rw [if_neg (by omega)]
  exact h1

/-- C14: a single count is used for every position of the axis. -/
theorem C14_single_count {α} (zero : α) (n : Int) (a : Arr α) (k : Nat) (axis : Int)
    (hk : k < a.shape.length) (hax : axis = k ∨ axis = (k : Int) - a.shape.length) (h1 : 1 < a.shape.getD k 0) :
    replicateArr zero [n] a axis = replicateArr zero (List.replicate (a.shape.getD k 0) n) a axis := by
  unfold replicateArr
  rw [commonReplExp_ok [n] a axis k hk hax (by simp), commonReplExp_ok _ a axis k hk hax (by omega)]
  simp only [bind, Except.bind, sliceAt_getD a.shape 0 hk]
  have h2 : extendL [n] (a.shape.getD k 0) = List.replicate (a.shape.getD k 0) n := by
    simp only [extendL]; rw [if_pos h1]
  rw [h2, extendL_of_ne (by simp; omega)]

/-- C14: an axis of length one is repeated to the length of `L`. -/
theorem C14_single_position {α} (zero : α) (L : List Int) (a : Arr α) (k : Nat) (axis : Int) (hw : a.WF)
    (hk : k < a.shape.length) (hax : axis = k ∨ axis = (k : Int) - a.shape.length)
    (h1 : a.shape.getD k 0 = 1) (hL : 1 < L.length) :
    ∃ r, replicateArr zero L a axis = .ok r ∧ r.WF ∧ r.shape = a.shape.set k (replPos L).length ∧
      ∀ idx, InB r.shape idx → ∃ o, (replPos L)[idx.getD k 0]? = some o ∧
        match o with
        | none => r.get? idx = some zero
        | some _ => InB a.shape (idx.set k 0) ∧ r.get? idx = a.get? (idx.set k 0) := by
  obtain ⟨b, e1, e2, e3, e4⟩ := extendAxis_spec L.length k a hw hk h1
  have hbk : b.shape.getD k 0 = L.length := by rw [e3, getD_set, if_pos ⟨rfl, hk⟩]
  have hkb : k < b.shape.length := by rw [e3]; simpa using hk
  obtain ⟨r, g1, g2, g3, g4⟩ := replicate_core zero L b k e2 hkb hbk.symm
  rw [axisMap_eq_replPos] at g3 g4
  refine ⟨r, ?_, g2, by rw [g3, e3, List.set_set], ?_⟩
  · have hc : commonReplExp L a axis = .ok (b, k) := by
      unfold commonReplExp
      have hne : a.shape ≠ [] := by intro h; rw [h] at hk; simp at hk
      rw [if_neg hne]
      have hax' : (if axis < 0 then (a.shape.length : Int) + axis else axis) = k := by
        split <;> omega
      simp only [hax']
      rw [if_neg (by omega)]
      simp only [Int.toNat_natCast, sliceAt_getD a.shape 0 hk, bind, Except.bind]
      rw [if_pos ⟨h1, hL⟩, e1]
      rfl
    unfold replicateArr
    rw [hc]
    simp only [bind, Except.bind, sliceAt_getD b.shape 0 hkb]
    rw [extendL_of_ne (by omega)]
    rw [if_neg (by omega)]
    exact g1
  · intro idx hidx
    obtain ⟨o, ho, hg⟩ := g4 idx hidx
    refine ⟨o, ho, ?_⟩
    cases o with
    | none => exact hg
    | some j =>
      simp only at hg ⊢
      obtain ⟨hi, hg⟩ := hg
      obtain ⟨hi', hg'⟩ := e4 _ hi
      rw [List.set_set] at hi' hg'
      exact ⟨hi', by rw [hg, hg']⟩

/-- C14: other lengths are rejected. -/
theorem C14_reject {α} (zero : α) (L : List Int) (a : Arr α) (k : Nat) (axis : Int)
    (hk : k < a.shape.length) (hax : axis = k ∨ axis = (k : Int) - a.shape.length)
    (hL : L.length ≠ a.shape.getD k 0) (h1 : a.shape.getD k 0 ≠ 1) (hL1 : L.length ≠ 1) :
    replicateArr zero L a axis = .error .err := by
  unfold replicateArr
  rw [commonReplExp_ok L a axis k hk hax (Or.inl h1)]
  simp only [bind, Except.bind, sliceAt_getD a.shape 0 hk]
  rw [extendL_of_ne (Or.inl hL1)]
  rw [if_pos hL]

theorem map_getElem_range {α} (v : List α) :
    (List.range v.length).map (fun j => v[j]?) = v.map some := by
  apply List.ext_getElem (by simp)
  intro i h1 h2
  simp at h1
  simp [h1]

/-- C14 on vectors: `L/V`. -/
theorem C14_vector {α} (zero : α) (L : List Int) (v : List α) (hL : L.length = v.length) :
    replicateArr zero L ⟨[v.length], v⟩ (-1) = .ok ⟨[(replSpec zero L v).length], replSpec zero L v⟩ := by
  obtain ⟨r, h1, h2, h3, h4⟩ := C14_replicate zero L ⟨[v.length], v⟩ 0 (-1) (by simp [Arr.WF, size]) (by simp)
    (Or.inr (by simp)) (by simpa using hL)
  rw [h1]
  have hspec : (replPos L).map (fun o => match o with | none => some zero | some j => v[j]?) = (replSpec zero L v).map some := by
    rw [← axisMap_eq_replPos, axisMap_spec (some zero) L 0 (fun j => v[j]?), ← List.range_eq_range', hL,
      map_getElem_range v]
    have : ∀ (L : List Int) (w : List α), replSpec (some zero) L (w.map some) = (replSpec zero L w).map some := by
      intro L
      induction L with
      | nil => intro w; cases w <;> rfl
      | cons n ns ih =>
        intro w
        cases w with
        | nil => rfl
        | cons x xs =>
          simp only [replSpec, List.map_cons, List.map_append, ih, List.map_replicate]
          congr 2
          split <;> rfl
    exact this L v
  have hlen : (replPos L).length = (replSpec zero L v).length := by
    have := congrArg List.length hspec; simpa using this
  congr 1
  have h3' : r.shape = [(replSpec zero L v).length] := by rw [h3, hlen]; rfl
  refine vec_eq h2 h3' rfl ?_
  intro i hi
  obtain ⟨o, ho, hg⟩ := h4 [i] (by rw [h3']; simp [InB]; exact hi)
  have := congrArg (fun l => l[i]?) hspec
  simp only [List.getElem?_map] at this
  simp only [List.getD_cons_zero] at ho
  rw [ho, List.getElem?_eq_getElem hi] at this
  rw [List.getElem?_eq_getElem hi]
  cases o with
  | none =>
    simp only [Option.map_some] at this
    rw [get?_vec_lt h3' hi] at hg
    rw [hg]; simpa using this
  | some j =>
    simp only [Option.map_some] at this
    simp only [List.set_cons_zero] at hg
    obtain ⟨hj, hg⟩ := hg
    have hj' : j < v.length := by simpa [InB] using hj
    rw [get?_vec_lt h3' hi, get?_vec_lt rfl hj'] at hg
    rw [hg]; simpa using this

/-- C14: replicating an empty array is not possible, it crashes. -/
theorem C14_empty_panics {α} (uk : List α → Kind) (zero : α) (L : List Int) :
    replicateVal uk zero L .empty (-1) = .error .panic := rfl

/-! ### expand -/

theorem expSpec_axis {β} (fill : β) (L : List Int) (vs : List β) (j : Nat)
    (h : L.countP (fun n => decide (0 < n)) + j ≤ vs.length) :
    expSpec fill L (vs.drop j) = (expAxis L j).map (fun o => match o with | none => fill | some i => vs.getD i fill) := by
  induction L generalizing j with
  | nil => rfl
  | cons n ns ih =>
    rw [List.countP_cons] at h
    simp only [expSpec, expAxis]
    by_cases h1 : 0 < n
    · rw [if_pos (by simpa using h1)] at h
      rw [if_pos h1, if_pos h1]
      have hj : j < vs.length := by omega
      rw [List.drop_eq_getElem_cons hj]
      simp only [List.map_append, List.map_replicate]
      rw [ih (j + 1) (by omega), getD_eq_getElem _ _ hj]
    · rw [if_neg (by simpa using h1)] at h
      rw [if_neg h1, if_neg h1]
      rw [ih j (by omega)]
      by_cases h2 : n = 0
      · subst h2; rw [if_pos rfl]; simp
      · rw [if_neg h2]
        simp only [List.map_append, List.map_replicate]
        congr 2; omega

/-- source positions of expand along an axis of length `n` -/
def expPos (L : List Int) (n : Nat) : List (Option Nat) := expSpec none L ((List.range n).map some)

theorem expAxis_eq_expPos (L : List Int) (n : Nat) (h : L.countP (fun n => decide (0 < n)) ≤ n) :
    expAxis L 0 = expPos L n := by
  have := expSpec_axis none L ((List.range n).map some) 0 (by simpa using h)
  rw [List.drop_zero] at this
  rw [expPos, this]
  conv => lhs; rw [← List.map_id (expAxis L 0)]
  apply List.map_congr_left
  intro o ho
  cases o with
  | none => rfl
  | some i =>
    have := (expAxis_mem ho).2
    simp only [id, List.getD, List.getElem?_map]
    rw [List.getElem?_range (by omega)]
    rfl

/-- C15 on arrays, when the axis is long enough for the positive items of `L` (and is not a single
position that gets extended). -/
theorem C15_expand {α} (zero : α) (L : List Int) (a : Arr α) (k : Nat) (axis : Int) (hw : a.WF) (hL : L ≠ [])
    (hk : k < a.shape.length) (hax : axis = k ∨ axis = (k : Int) - a.shape.length)
    (hs : a.shape.getD k 0 ≠ 1 ∨ L.length ≤ 1)
    (hcnt : L.countP (fun n => decide (0 < n)) ≤ a.shape.getD k 0) :
    ∃ r, expandArr zero L a axis = .ok r ∧ r.WF ∧ r.shape = a.shape.set k (expPos L (a.shape.getD k 0)).length ∧
      ∀ idx, InB r.shape idx → ∃ o, (expPos L (a.shape.getD k 0))[idx.getD k 0]? = some o ∧
        match o with
        | none => r.get? idx = some zero
        | some j => InB a.shape (idx.set k j) ∧ r.get? idx = a.get? (idx.set k j) := by
  rw [← expAxis_eq_expPos L _ hcnt, expAxis_length]
  obtain ⟨ws, h1, h2⟩ := expand_core zero L a k hw hk hL hcnt
  have hne : a.shape ≠ [] := by intro h; rw [h] at hk; simp at hk
  have hne' : a.shape.set k (expLen L) ≠ [] := by
    intro h; have := congrArg List.length h; simp at this; exact hne this
  have hpos : expLen L ≠ 0 := by
    cases L with
    | nil => exact absurd rfl hL
    | cons n ns =>
      unfold expLen; simp only [List.foldl_cons]; rw [expLen_aux]; split <;> omega
  refine ⟨⟨a.shape.set k (expLen L), applySets (List.replicate (size (a.shape.set k (expLen L))) zero) ws.flatten⟩, ?_, ?_, rfl, ?_⟩
  · unfold expandArr
    rw [commonReplExp_ok L a axis k hk hax hs]
    simp only [bind, Except.bind, newIdxConverter_ok hne, newIdxConverter_ok hne']
    rw [if_neg hpos, prod_eq_size hne']
    rw [h1]
    rfl
  · show _ = _
    simp only
    rw [applySets_length]; simp
  · intro idx hidx
    have hidx' : InB (a.shape.set k (expLen L)) idx := hidx
    obtain ⟨o, ho, hg⟩ := h2 idx hidx'
    refine ⟨o, ho, ?_⟩
    rw [Arr.get?_of_inB (by exact hidx')]
    cases o with
    | none => exact hg
    | some j => exact hg

/-- C15 on vectors: `L\V` (the vector has at least as many elements as `L` has positive items;
further elements are ignored). -/
theorem C15_vector {α} (zero : α) (L : List Int) (v : List α) (hL : L ≠ [])
    (hs : v.length ≠ 1 ∨ L.length ≤ 1) (hcnt : L.countP (fun n => decide (0 < n)) ≤ v.length) :
    expandArr zero L ⟨[v.length], v⟩ (-1) = .ok ⟨[(expSpec zero L v).length], expSpec zero L v⟩ := by
  obtain ⟨r, h1, h2, h3, h4⟩ := C15_expand zero L ⟨[v.length], v⟩ 0 (-1) (by simp [Arr.WF, size]) hL (by simp)
    (Or.inr (by simp)) (by simpa using hs) (by simpa using hcnt)
  rw [h1]
  simp only [List.getD_cons_zero] at h3 h4
  rw [← expAxis_eq_expPos L _ hcnt] at h3 h4
  have hspec := expSpec_axis zero L v 0 (by simpa using hcnt)
  rw [List.drop_zero] at hspec
  have hlen : (expAxis L 0).length = (expSpec zero L v).length := by rw [hspec]; simp
  have h3' : r.shape = [(expSpec zero L v).length] := by rw [h3, hlen]; rfl
  congr 1
  refine vec_eq h2 h3' rfl ?_
  intro i hi
  obtain ⟨o, ho, hg⟩ := h4 [i] (by rw [h3']; simp [InB]; exact hi)
  simp only [List.getD_cons_zero] at ho
  have := congrArg (fun l => l[i]?) hspec
  simp only [List.getElem?_map, ho, Option.map_some] at this
  rw [this]
  cases o with
  | none =>
    rw [get?_vec_lt h3' hi] at hg
    exact hg
  | some j =>
    simp only [List.set_cons_zero] at hg
    obtain ⟨hj, hg⟩ := hg
    have hj' : j < v.length := by simpa [InB] using hj
    rw [get?_vec_lt h3' hi, get?_vec_lt rfl hj'] at hg
    simp only
    rw [hg, List.getElem?_eq_getElem hj', getD_eq_getElem _ _ hj']

theorem expSpec_bool {α} (zero : α) (M : List Int) (v : List α) (hb : ∀ n ∈ M, n = 0 ∨ n = 1)
    (hc : M.countP (fun n => decide (0 < n)) = v.length) :
    (expSpec zero M v).length = M.length ∧ replSpec zero M (expSpec zero M v) = v := by
  induction M generalizing v with
  | nil => simp at hc; cases v <;> simp_all [expSpec, replSpec]
  | cons n ns ih =>
    rw [List.countP_cons] at hc
    rcases hb n (by simp) with h | h
    · subst h
      simp at hc
      have := ih v (fun m hm => hb m (by simp [hm])) (by simpa using hc)
      simp [expSpec, replSpec, this]
    · subst h
      simp at hc
      cases v with
      | nil => simp at hc
      | cons x xs =>
        have := ih xs (fun m hm => hb m (by simp [hm])) (by simpa using hc)
        simp [expSpec, replSpec, this]

theorem compress_expand_aux {α} (zero : α) (M : List Int) (v : List α) (hM : M ≠ [])
    (hb : ∀ n ∈ M, n = 0 ∨ n = 1) (hc : M.countP (fun n => decide (0 < n)) = v.length)
    (hs : v.length ≠ 1 ∨ M.length ≤ 1) :
    (expandArr zero M ⟨[v.length], v⟩ (-1)).bind (fun e => replicateArr zero M e (-1)) =
      .ok ⟨[v.length], v⟩ := by
  rw [C15_vector zero M v hM hs (by omega)]
  simp only [Except.bind]
  obtain ⟨h1, h2⟩ := expSpec_bool zero M v hb hc
  rw [C14_vector zero M _ h1.symm, h2]

/-- C15 with a one-element vector: it is first repeated to the length of the mask, so a mask with one
`1` still gives the element at that place and `M/M\V` is `V`. -/
theorem C15_single_extend {α} (zero : α) (L : List Int) (x : α) (hL : 1 < L.length) :
    expandArr zero L ⟨[1], [x]⟩ (-1) = .ok ⟨[(expSpec zero L (List.replicate L.length x)).length],
      expSpec zero L (List.replicate L.length x)⟩ := by
  obtain ⟨b, e1, e2, e3, e4⟩ := extendAxis_spec L.length 0 ⟨[1], [x]⟩ (by simp [Arr.WF, size]) (by simp) rfl
  have hbs : b.shape = [L.length] := by rw [e3]; rfl
  have hb : b = ⟨[L.length], List.replicate L.length x⟩ := by
    refine vec_eq e2 hbs (by simp) ?_
    intro i hi
    have := (e4 [i] (by rw [hbs]; simp [InB, hi])).2
    rw [get?_vec_lt hbs hi] at this
    rw [this, List.getElem?_replicate, if_pos hi]
    rfl
  have key : expandArr zero L ⟨[1], [x]⟩ (-1) = expandArr zero L ⟨[L.length], List.replicate L.length x⟩ (-1) := by
    unfold expandArr
    have c1 : commonReplExp L (⟨[1], [x]⟩ : Arr α) (-1) = .ok (b, 0) := by
      unfold commonReplExp
      rw [if_neg (by simp)]
      simp only [List.length_cons, List.length_nil]
      rw [if_neg (by decide)]
      have : sliceAt [1] ((if (-1 : Int) < 0 then (((0 + 1 : Nat) : Int)) + -1 else -1).toNat) = (.ok 1 : Res Nat) := rfl
      simp only [bind, Except.bind, this]
      rw [if_pos (show (True ∧ L.length > 1) from ⟨trivial, hL⟩)]
      have : (if (-1 : Int) < 0 then (((0 + 1 : Nat) : Int)) + -1 else -1).toNat = 0 := rfl
      rw [this, e1]
      rfl
    have c2 := commonReplExp_ok L (⟨[L.length], List.replicate L.length x⟩ : Arr α) (-1) 0 (by simp) (Or.inr (by simp))
      (Or.inl (by simp; omega))
    rw [c1, c2, hb]
  rw [key]
  have := C15_vector zero L (List.replicate L.length x) (by intro h; simp [h] at hL) (Or.inl (by simp; omega))
    (by rw [List.length_replicate]; exact List.countP_le_length)
  rw [List.length_replicate] at this
  exact this

theorem expSpec_append {β} (fill : β) (M : List Int) : ∀ (v w : List β), M.countP (fun n => decide (0 < n)) ≤ v.length →
    expSpec fill M (v ++ w) = expSpec fill M v := by
  induction M with
  | nil => intro v w _; rfl
  | cons n ns ih =>
    intro v w h
    rw [List.countP_cons] at h
    by_cases hn : 0 < n
    · cases v with
      | nil => simp [hn] at h
      | cons x v =>
        simp only [expSpec, if_pos hn, List.cons_append]
        rw [ih v w (by simp [hn] at h; omega)]
    · simp only [expSpec, if_neg hn]
      rw [ih v w (by simp [hn] at h; omega)]

/-- C15: for a boolean mask `M` with as many ones as `V` has elements, `M/M\V` is `V`. -/
theorem C15_compress_expand {α} (zero : α) (M : List Int) (v : List α) (hM : M ≠ [])
    (hb : ∀ n ∈ M, n = 0 ∨ n = 1) (hc : M.countP (fun n => decide (0 < n)) = v.length) :
    (expandArr zero M ⟨[v.length], v⟩ (-1)).bind (fun e => replicateArr zero M e (-1)) =
      .ok ⟨[v.length], v⟩ := by
  by_cases hs : v.length ≠ 1 ∨ M.length ≤ 1
  · exact compress_expand_aux zero M v hM hb hc hs
  · have h1 : v.length = 1 := by omega
    have h2 : 1 < M.length := by omega
    obtain ⟨x, rfl⟩ := List.length_eq_one_iff.1 h1
    have hx : List.replicate M.length x = [x] ++ List.replicate (M.length - 1) x := by
      rw [← List.replicate_one, List.replicate_append_replicate]; congr 1; omega
    have e1 := C15_single_extend zero M x h2
    rw [hx, expSpec_append zero M [x] _ (by omega)] at e1
    obtain ⟨g1, g2⟩ := expSpec_bool zero M [x] hb hc
    simp only [List.length_singleton] at *
    rw [e1]
    simp only [Except.bind]
    rw [C14_vector zero M _ g1.symm, g2]
    rfl

/-- Expand does not check the lengths: surplus elements of the right argument are silently dropped,
where `1 0\1 2 3` should be an error. -/
theorem C15_surplus_ignored : expandArr 0 [1, 0] (⟨[3], [1, 2, 3]⟩ : Arr Nat) (-1) = .ok ⟨[2], [1, 0]⟩ := by rfl

/-- … and too few elements crash. -/
theorem C15_shortage_panics : expandArr 0 [1, 1, 1] (⟨[2], [1, 2]⟩ : Arr Nat) (-1) = .error .panic := by rfl

example : replicateArr 0 [2, -1, 0] (⟨[3], [5, 6, 7]⟩ : Arr Nat) (-1) = .ok ⟨[3], [5, 5, 0]⟩ := by rfl
example : replicateArr 0 [1, 0, 1] (⟨[2, 3], [1, 2, 3, 4, 5, 6]⟩ : Arr Nat) (-1) = .ok ⟨[2, 2], [1, 3, 4, 6]⟩ := by rfl
example : expandArr 0 [1, 0, 2] (⟨[2, 2], [1, 2, 3, 4]⟩ : Arr Nat) (-1) = .ok ⟨[2, 4], [1, 0, 2, 2, 3, 0, 4, 4]⟩ := by rfl

end Iv

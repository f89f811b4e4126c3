import Verif.Lemmas.Rank
import Verif.Lemmas.Transpose
/-
C30 rank operator.
-/
namespace Iv
variable {m : Type → Type} [Monad m] [LawfulMonad m] {α : Type}

theorem filterMap_all_some {β γ} (l : List β) (g : β → Option γ) (h : ∀ x ∈ l, (g x).isSome) : (l.filterMap g).map some = l.map g := by
  induction l with
  | nil => rfl
  | cons x l ih =>
    obtain ⟨v, hv⟩ := Option.isSome_iff_exists.1 (h x (by simp))
    simp [List.filterMap_cons, hv, ih (fun y hy => h y (by simp [hy]))]

theorem filterMap_allIdx_get {β} (t : List Nat) (g : List Nat → Option β) (h : ∀ j, InB t j → (g j).isSome) (i : Nat) (hi : i < size t) :
    ((allIdx t).filterMap g)[i]? = g (unflat t i) := by
  have h1 := filterMap_all_some (allIdx t) g (fun j hj => h j (mem_allIdx.1 hj))
  have h2 : (((allIdx t).filterMap g).map some)[i]? = ((allIdx t).map g)[i]? := by rw [h1]
  rw [List.getElem?_map, List.getElem?_map, allIdx_eq, List.getElem?_map, List.getElem?_range hi] at h2
  cases hx : ((allIdx t).filterMap g)[i]? with
  | none => rw [← allIdx_eq, hx] at h2; simp at h2
  | some v => rw [← allIdx_eq, hx] at h2; simp at h2; exact h2

theorem filterMap_allIdx_length {β} (t : List Nat) (g : List Nat → Option β) (h : ∀ j, InB t j → (g j).isSome) :
    ((allIdx t).filterMap g).length = size t := by
  have h1 := filterMap_all_some (allIdx t) g (fun j hj => h j (mem_allIdx.1 hj))
  have := congrArg List.length h1
  simpa [allIdx_length] using this

/-- the cell as a value: a scalar if it has no axes left -/
def cellVal (uk : List α → Kind) (a : Arr α) (fi : List Nat) : Val α :=
  if (a.cell fi).shape = [] then
    match (a.cell fi).data with
    | x :: _ => .scalar x
    | [] => .empty
  else .arr (uk (a.cell fi).data) (a.cell fi)

theorem subcell_ok (uk : List α → Kind) (a : Arr α) (hw : a.WF) (p : Nat) (hp : p < a.shape.length) (fi : List Nat)
    (hfi : InB (a.shape.take (a.shape.length - p)) fi)
    (hn : p = 0 ∨ flat (a.shape.take (a.shape.length - p)) fi ≤ a.shape.getD (a.shape.length - 1 - p) 0) :
    subcell uk a p (flat (a.shape.take (a.shape.length - p)) fi) = .ok (cellVal uk a fi) := by
  have hfl : fi.length = a.shape.length - p := by
    have := hfi.length_eq
    rw [List.length_take] at this; omega
  have hsplit : a.shape = a.shape.take (a.shape.length - p) ++ a.shape.drop (a.shape.length - p) := (List.take_append_drop _ _).symm
  have hget : ∀ j, InB (a.shape.drop (a.shape.length - p)) j → InB a.shape (fi ++ j) ∧
      flat a.shape (fi ++ j) = flat (a.shape.take (a.shape.length - p)) fi * size (a.shape.drop (a.shape.length - p)) + flat (a.shape.drop (a.shape.length - p)) j := by
    intro j hj
    constructor
    · conv => lhs; rw [hsplit]
      exact (InB_append hfi.length_eq).2 ⟨hfi, hj⟩
    · conv => lhs; rw [hsplit]
      exact flat_append' hfi.length_eq _ _
  have hsome : ∀ j, InB (a.shape.drop (a.shape.length - p)) j → (a.get? (fi ++ j)).isSome := fun j hj => Arr.get?_isSome hw (hget j hj).1
  unfold subcell cellVal Arr.cell
  rw [hfl]
  by_cases hp0 : p = 0
  · subst hp0
    have hd : a.shape.drop (a.shape.length - 0) = [] := by simp
    have hin := (hget [] (by rw [hd]; trivial)).1
    have hfe := (hget [] (by rw [hd]; trivial)).2
    rw [hd] at hfe
    rw [List.append_nil] at hin hfe
    rw [if_pos rfl, hd]
    simp only [if_true, allIdx]
    have hlt : flat a.shape fi < a.data.length := by rw [hw]; exact flat_lt hin
    have hg : a.get? fi = some a.data[flat a.shape fi] := by
      rw [Arr.get?_of_inB hin]; exact List.getElem?_eq_getElem hlt
    simp only [List.filterMap_cons, List.append_nil, hg, List.filterMap_nil]
    simp only [size, flat, Nat.mul_one, Nat.add_zero] at hfe
    rw [← hfe, sliceAt_ok hlt]; rfl
  · rw [if_neg hp0, if_neg (by omega), if_neg (by omega), if_neg (by omega)]
    have hne : a.shape.drop (a.shape.length - p) ≠ [] := by
      intro h
      have := congrArg List.length h
      simp at this; omega
    rw [if_neg hne]
    simp only [prod_eq_size hne]
    have hrd : ∀ i, i < size (a.shape.drop (a.shape.length - p)) → ∃ v,
        sliceAt a.data (flat (a.shape.take (a.shape.length - p)) fi * size (a.shape.drop (a.shape.length - p)) + i) = .ok v ∧
        a.get? (fi ++ unflat (a.shape.drop (a.shape.length - p)) i) = some v := by
      intro i hi
      obtain ⟨hb, hf⟩ := hget _ (unflat_inB hi)
      obtain ⟨v, hv⟩ := Option.isSome_iff_exists.1 (Arr.get?_isSome hw hb)
      refine ⟨v, ?_, hv⟩
      rw [Arr.get?_of_inB hb, hf, flat_unflat hi] at hv
      exact sliceAt_eq_ok.2 hv
    obtain ⟨d, e1, e2, e3⟩ := forLoop_ex (body := fun i => sliceAt a.data (flat (a.shape.take (a.shape.length - p)) fi * size (a.shape.drop (a.shape.length - p)) + i))
      (size (a.shape.drop (a.shape.length - p))) (fun i hi => by obtain ⟨v, hv, _⟩ := hrd i hi; exact ⟨v, hv⟩)
    have hdd : d = (allIdx (a.shape.drop (a.shape.length - p))).filterMap (fun j => a.get? (fi ++ j)) := by
      apply List.ext_getElem?
      intro i
      by_cases hi : i < size (a.shape.drop (a.shape.length - p))
      · obtain ⟨v, hv, hd⟩ := e3 i hi
        obtain ⟨v', hv', hg⟩ := hrd i hi
        rw [hv] at hv'; cases hv'
        rw [hd, filterMap_allIdx_get _ _ hsome i hi, hg]
      · rw [List.getElem?_eq_none (by omega), List.getElem?_eq_none (by rw [filterMap_allIdx_length _ _ hsome]; omega)]
    rw [e1, hdd]
    rfl

theorem normRank_ok (rank p : Nat) (h : p ≤ rank) : normRank rank (p : Int) = .ok p := by
  unfold normRank
  simp only
  rw [if_neg (by omega), if_neg (by omega), Int.toNat_natCast]

/-- a negative rank counts from the rank of the argument -/
theorem normRank_neg (rank p : Nat) (h : 0 < p) (h2 : p ≤ rank) : normRank rank (-(p : Int)) = .ok (rank - p) := by
  unfold normRank
  simp only
  have hc : -(p : Int) < 0 := by omega
  simp only [if_pos hc]
  rw [if_neg (by omega)]
  congr 1; omega

/-- The check of the cell numbers in the code is passed: cells are scalars, or the number of cells does not exceed the
length of the last frame axis by more than one. -/
def CellsReachable (s : List Nat) (p : Nat) : Prop :=
  p = 0 ∨ size (s.take (s.length - p)) ≤ s.getD (s.length - 1 - p) 0 + 1

/-- a frame of one axis always passes -/
theorem C30_reachable_one (n : Nat) (s : List Nat) : CellsReachable (n :: s) s.length := by
  right
  simp [size]

/-- C30: `f⍤p A` calls f on the p-cells of A in row-major order of the frame, and joins the results under
the frame. -/
theorem C30_monadic (uk : List α → Kind) (zero emptyEl : α) (zk : Kind → α) (f : Fn m (Val α)) (k : Kind) (a : Arr α) (hw : a.WF)
    (p : Nat) (hp : p < a.shape.length) (hc : CellsReachable a.shape p) :
    rankMonadic uk zero emptyEl zk f (p : Int) (.arr k a) = (do
      let results ← (allIdx (a.shape.take (a.shape.length - p))).mapM (fun fi => f none (cellVal uk a fi))
      ofRes (rankJoin uk zero emptyEl zk (a.shape.take (a.shape.length - p)) results)) := by
  unfold rankMonadic
  simp only [normRank_ok _ _ (Nat.le_of_lt hp), ofRes_ok, pure_bind]
  congr 1
  have hne : a.shape.take (a.shape.length - p) ≠ [] := by
    intro h
    have := congrArg List.length h
    simp at this; omega
  rw [forLoopM_eq, subcells, prod_eq_size hne, allIdx_eq, mapM_map']
  apply mapM_congr'
  intro i hi
  have hi : i < size (a.shape.take (a.shape.length - p)) := by simpa using hi
  have := subcell_ok uk a hw p hp _ (unflat_inB hi) (by
    rw [flat_unflat hi]
    rcases hc with h | h
    · exact Or.inl h
    · right; omega)
  rw [flat_unflat hi] at this
  rw [this, ofRes_ok, pure_bind]

/-- C30: the common shape of the results: its rank is the largest rank, each axis, counted from the last, is the longest among the results. -/
theorem C30_common (results : List (Val α)) :
    (∀ k a, Val.arr k a ∈ results → a.shape.length ≤ (commonShape results).length ∧
      ∀ j, a.shape.reverse.getD j 0 ≤ (commonShape results).reverse.getD j 0) ∧
    ((commonShape results).length = 0 ∨ ∃ k a, Val.arr k a ∈ results ∧ a.shape.length = (commonShape results).length) ∧
    (∀ j, (commonShape results).reverse.getD j 0 = 0 ∨
      ∃ k a, Val.arr k a ∈ results ∧ a.shape.reverse.getD j 0 = (commonShape results).reverse.getD j 0) := by
  obtain ⟨h1, h2⟩ := foldl_commonStep (results.filterMap arrShape?) []
  have hmem : ∀ s, s ∈ results.filterMap arrShape? → s = [] ∨ ∃ k a, Val.arr k a ∈ results ∧ a.shape = s := by
    intro s hs
    obtain ⟨v, hv, he⟩ := List.mem_filterMap.1 hs
    cases v with
    | scalar => cases he
    | empty => cases he; exact Or.inl rfl
    | arr k a => cases he; exact Or.inr ⟨k, a, hv, rfl⟩
    | bad => cases he
  have hlen := foldl_max_spec (results.filterMap arrShape?) (fun s => s.length) 0
  have hax := fun j => foldl_max_spec (results.filterMap arrShape?) (fun s => s.reverse.getD j 0) 0
  unfold commonShape
  refine ⟨?_, ?_, ?_⟩
  · intro k a ha
    have hs : a.shape ∈ results.filterMap arrShape? := List.mem_filterMap.2 ⟨_, ha, rfl⟩
    refine ⟨by rw [h1]; exact hlen.2.1 _ hs, fun j => ?_⟩
    have hz : ([] : List Nat).reverse.getD j 0 = 0 := by simp
    rw [h2 j, hz]; exact (hax j).2.1 _ hs
  · rw [h1]
    rcases hlen.2.2 with h | ⟨s, hs, h⟩
    · left; exact h
    · rcases hmem s hs with rfl | ⟨k, a, ha, rfl⟩
      · left; rw [List.length_nil, ← h]; rfl
      · right; exact ⟨k, a, ha, h⟩
  · intro j
    have hz : ([] : List Nat).reverse.getD j 0 = 0 := by simp
    rw [h2 j, hz]
    rcases (hax j).2.2 with h | ⟨s, hs, h⟩
    · left; exact h
    · rcases hmem s hs with rfl | ⟨k, a, ha, rfl⟩
      · left; rw [← h]; exact hz
      · right; exact ⟨k, a, ha, h⟩

/-- C30: joining the results.  They lie under the frame; unequal results are padded to the common shape (scalars are
repeated, arrays of lower rank get leading axes of length 1, short axes are filled).  With scalar results only the shape
is the frame. -/
theorem C30_join (uk : List α → Kind) (zero emptyEl : α) (zk : Kind → α) (frame : List Nat) (hf : frame ≠ []) (results : List (Val α))
    (hl : results.length = size frame) (hg : ∀ v ∈ results, GoodCell v) :
    ∃ kr r, rankJoin uk zero emptyEl zk frame results = .ok (.arr kr r) ∧ r.WF ∧
      r.shape = frame ++ commonShape results ∧
      ∀ fi j v, InB frame fi → InB (commonShape results) j → results[flat frame fi]? = some v →
        r.get? (fi ++ j) = padAt zk (commonShape results).length v j := by
  obtain ⟨c1, c2, c3⟩ := C30_common results
  have hrank : ∀ v ∈ results, cellRank v ≤ (commonShape results).length := by
    intro v hv
    cases v with
    | arr k a => exact (c1 k a hv).1
    | _ => simp [cellRank]
  unfold rankJoin
  simp only
  generalize commonShape results = common at *
  by_cases hc : common = []
  · subst hc
    -- all results are scalars
    have hsc : ∀ v ∈ results, ∃ x, v = .scalar x := by
      intro v hv
      cases v with
      | scalar x => exact ⟨x, rfl⟩
      | empty => exact absurd (hg _ hv) (by simp [GoodCell])
      | bad => exact absurd (hg _ hv) (by simp [GoodCell])
      | arr k a =>
        have h1 := (c1 k a hv).1
        have h2 := (hg _ hv).2.1
        exact absurd (List.length_eq_zero_iff.1 (by simpa using h1)) h2
    have h1 : results.mapM (conform uk zero zk []) = .ok results := by
      rw [mapM_ok results _ id]
      · simp
      · intro v hv
        obtain ⟨x, rfl⟩ := hsc v hv
        rfl
    rw [h1]
    simp only [bind, Except.bind, assemble, List.length_nil, if_true]
    rw [if_neg (by rw [prod_eq_size hf]; omega)]
    obtain ⟨d, h2, h3, h4⟩ := mapM_pure_ex (M := Res) (l := results)
      (g := asElement emptyEl)
      (P := fun v x => v = .scalar x) (fun v hv => by obtain ⟨x, rfl⟩ := hsc v hv; exact ⟨x, rfl, rfl⟩)
    rw [h2]
    refine ⟨_, _, rfl, ?_, by simp, ?_⟩
    · unfold Arr.WF; simp only; omega
    · intro fi j v hfi hj hv
      have : j = [] := by cases j with | nil => rfl | cons => simp [InB] at hj
      subst this
      obtain ⟨x, hx, _, rfl⟩ := h4 _ _ hv
      rw [List.append_nil, Arr.get?_of_inB hfi]
      exact hx
  · obtain ⟨rs, h1, h2, h3⟩ := mapM_pure_ex (M := Res) (l := results) (g := conform uk zero zk common)
      (P := fun v w => ∃ k a', w = Val.arr k a' ∧ a'.shape = common ∧ a'.WF ∧
        ∀ j, InB common j → a'.get? j = padAt zk common.length v j)
      (fun v hv => by
        obtain ⟨k, a', e1, e2, e3, e4⟩ := conform_spec uk zero zk common hc v (hg v hv) (hrank v hv)
        exact ⟨_, e1, k, a', rfl, e2, e3, e4⟩)
    rw [h1]
    have hlen0 : common.length ≠ 0 := by rw [Ne, List.length_eq_zero_iff]; exact hc
    simp only [bind, Except.bind, pure, Except.pure, assemble, if_neg hlen0]
    have hrs : ∀ w ∈ rs, ∃ k a', w = Val.arr k a' ∧ a'.shape = common ∧ a'.WF := by
      intro w hw
      obtain ⟨i, hi, rfl⟩ := List.mem_iff_getElem.1 hw
      obtain ⟨w', e1, _, k, a', e2, e3, e4, _⟩ := h3 i results[i] (List.getElem?_eq_getElem (by omega))
      rw [List.getElem?_eq_getElem hi] at e1
      cases e1
      exact ⟨k, a', e2, e3, e4⟩
    obtain ⟨parts, g1, g2, g3⟩ := mapM_pure_ex (M := Res) (l := rs)
      (g := asElements (prod common))
      (P := fun w q => ∃ k a', w = Val.arr k a' ∧ q = a'.data ∧ q.length = size common) (fun w hw => by
        obtain ⟨k, a', rfl, e1, e2⟩ := hrs w hw
        have hlen : prod common = a'.data.length := by rw [prod_eq_size hc, e2, e1]
        refine ⟨a'.data, ?_, k, a', rfl, rfl, by rw [e2, e1]⟩
        simp only [hlen, asElements]
        exact forLoop_slice a'.data)
    rw [g1]
    have hparts : ∀ q ∈ parts, q.length = size common := by
      intro q hq
      obtain ⟨i, hi, rfl⟩ := List.mem_iff_getElem.1 hq
      obtain ⟨w', e1, _, k, a', e2, e3, e4⟩ := g3 i rs[i] (List.getElem?_eq_getElem (by omega))
      rw [List.getElem?_eq_getElem hi] at e1
      cases e1
      exact e4
    refine ⟨_, _, rfl, ?_, rfl, ?_⟩
    · unfold Arr.WF
      simp only [pure]
      rw [flatten_length' _ _ hparts, size_append, g2, h2, hl]
    · intro fi j v hfi hj hv
      have hij : InB (frame ++ common) (fi ++ j) := (InB_append hfi.length_eq).2 ⟨hfi, hj⟩
      rw [Arr.get?_of_inB hij]
      simp only
      rw [flat_append' hfi.length_eq, flatten_get _ _ hparts _ _ (flat_lt hj)]
      obtain ⟨w, e1, _, k, a', e2, e3, e4, e5⟩ := h3 _ _ hv
      obtain ⟨q, e6, _, k', a'', e7, e8, _⟩ := g3 _ _ e1
      rw [e2] at e7
      cases e7
      rw [e6, Option.bind_some, e8, ← e5 j hj]
      rw [Arr.get?_of_inB (by rw [e3]; exact hj), e3]

/-- C30: dyadic use.  With equally many cells f is called on corresponding cells in row-major order of the frame of R.
If the cell rank of one side is its full rank, the whole argument is used in every call. -/
theorem C30_dyadic (uk : List α → Kind) (zero emptyEl : α) (zk : Kind → α) (f : Fn m (Val α)) (kl kr : Kind) (a b : Arr α)
    (ha : a.WF) (hb : b.WF) (q r : Nat) (hq : q < a.shape.length) (hr : r < b.shape.length)
    (hcq : CellsReachable a.shape q) (hcr : CellsReachable b.shape r)
    (heq : size (a.shape.take (a.shape.length - q)) = size (b.shape.take (b.shape.length - r)))
    (hpos : 0 < size (b.shape.take (b.shape.length - r))) :
    rankDyadic uk zero emptyEl zk f (q : Int) (r : Int) (.arr kl a) (.arr kr b) = (do
      let results ← ((allIdx (a.shape.take (a.shape.length - q))).zip (allIdx (b.shape.take (b.shape.length - r)))).mapM
        (fun p => f (some (cellVal uk a p.1)) (cellVal uk b p.2))
      ofRes (rankJoin uk zero emptyEl zk (b.shape.take (b.shape.length - r)) results)) := by
  have hne : a.shape.take (a.shape.length - q) ≠ [] := by
    intro h
    have := congrArg List.length h
    simp at this; omega
  have hne' : b.shape.take (b.shape.length - r) ≠ [] := by
    intro h
    have := congrArg List.length h
    simp at this; omega
  unfold rankDyadic
  simp only [normRank_ok _ _ (Nat.le_of_lt hq), normRank_ok _ _ (Nat.le_of_lt hr), ofRes_ok, pure_bind]
  simp only [subcells, prod_eq_size hne, prod_eq_size hne', heq]
  rw [if_neg (by omega), if_neg (by omega), if_neg (by omega)]
  congr 1
  have hz : (allIdx (a.shape.take (a.shape.length - q))).zip (allIdx (b.shape.take (b.shape.length - r))) =
      (List.range (size (b.shape.take (b.shape.length - r)))).map (fun i => (unflat (a.shape.take (a.shape.length - q)) i, unflat (b.shape.take (b.shape.length - r)) i)) := by
    rw [allIdx_eq, allIdx_eq, heq, List.zip_map']
  rw [hz, mapM_map', forLoopM_eq]
  apply mapM_congr'
  intro i hi
  have hi : i < size (b.shape.take (b.shape.length - r)) := by simpa using hi
  have e1 := subcell_ok uk a ha q hq _ (unflat_inB (heq ▸ hi)) (by
    rw [flat_unflat (heq ▸ hi)]
    rcases hcq with h | h
    · exact Or.inl h
    · right; omega)
  have e2 := subcell_ok uk b hb r hr _ (unflat_inB hi) (by
    rw [flat_unflat hi]
    rcases hcr with h | h
    · exact Or.inl h
    · right; omega)
  rw [flat_unflat (heq ▸ hi)] at e1
  rw [flat_unflat hi] at e2
  have hz0 : ¬ size (b.shape.take (b.shape.length - r)) = 0 := by omega
  rw [e1, e2]
  simp only [if_neg hz0, ofRes_ok, pure_bind]

theorem C30_dyadic_whole_left (uk : List α → Kind) (zero emptyEl : α) (zk : Kind → α) (f : Fn m (Val α)) (kl kr : Kind) (a b : Arr α)
    (hb : b.WF) (r : Nat) (hr : r < b.shape.length) (hcr : CellsReachable b.shape r)
    (hpos : 0 < size (b.shape.take (b.shape.length - r))) :
    rankDyadic uk zero emptyEl zk f (a.shape.length : Int) (r : Int) (.arr kl a) (.arr kr b) = (do
      let results ← (allIdx (b.shape.take (b.shape.length - r))).mapM (fun fi => f (some (.arr kl a)) (cellVal uk b fi))
      ofRes (rankJoin uk zero emptyEl zk (b.shape.take (b.shape.length - r)) results)) := by
  have hne' : b.shape.take (b.shape.length - r) ≠ [] := by
    intro h
    have := congrArg List.length h
    simp at this; omega
  unfold rankDyadic
  simp only [normRank_ok _ _ (Nat.le_refl _), normRank_ok _ _ (Nat.le_of_lt hr), ofRes_ok, pure_bind]
  have h0 : prod (a.shape.take (a.shape.length - a.shape.length)) = 0 := by simp [prod]
  simp only [subcells, h0, prod_eq_size hne']
  rw [if_neg (by omega), if_pos hpos, if_neg (by omega)]
  congr 1
  rw [forLoopM_eq, allIdx_eq, mapM_map']
  apply mapM_congr'
  intro i hi
  have hi : i < size (b.shape.take (b.shape.length - r)) := by simpa using hi
  have e2 := subcell_ok uk b hb r hr _ (unflat_inB hi) (by
    rw [flat_unflat hi]
    rcases hcr with h | h
    · exact Or.inl h
    · right; omega)
  rw [flat_unflat hi] at e2
  have hz0 : ¬ size (b.shape.take (b.shape.length - r)) = 0 := by omega
  rw [e2]
  simp only [if_true, if_neg hz0, ofRes_ok, pure_bind]

/-- C30: if the cell rank of R is its full rank, the whole of R is used in every call, and the results lie under the frame of L. -/
theorem C30_dyadic_whole_right (uk : List α → Kind) (zero emptyEl : α) (zk : Kind → α) (f : Fn m (Val α)) (kl kr : Kind) (a b : Arr α)
    (ha : a.WF) (q : Nat) (hq : q < a.shape.length) (hcq : CellsReachable a.shape q)
    (hpos : 0 < size (a.shape.take (a.shape.length - q))) :
    rankDyadic uk zero emptyEl zk f (q : Int) (b.shape.length : Int) (.arr kl a) (.arr kr b) = (do
      let results ← (allIdx (a.shape.take (a.shape.length - q))).mapM (fun fi => f (some (cellVal uk a fi)) (.arr kr b))
      ofRes (rankJoin uk zero emptyEl zk (a.shape.take (a.shape.length - q)) results)) := by
  have hne' : a.shape.take (a.shape.length - q) ≠ [] := by
    intro h
    have := congrArg List.length h
    simp at this; omega
  unfold rankDyadic
  simp only [normRank_ok _ _ (Nat.le_refl _), normRank_ok _ _ (Nat.le_of_lt hq), ofRes_ok, pure_bind]
  have h0 : prod (b.shape.take (b.shape.length - b.shape.length)) = 0 := by simp [prod]
  simp only [subcells, h0, prod_eq_size hne']
  rw [if_neg (by omega), if_neg (by omega)]
  congr 1
  rw [forLoopM_eq, allIdx_eq, mapM_map']
  apply mapM_congr'
  intro i hi
  have hi : i < size (a.shape.take (a.shape.length - q)) := by simpa using hi
  have e2 := subcell_ok uk a ha q hq _ (unflat_inB hi) (by
    rw [flat_unflat hi]
    rcases hcq with h | h
    · exact Or.inl h
    · right; omega)
  rw [flat_unflat hi] at e2
  have hz0 : ¬ size (a.shape.take (a.shape.length - q)) = 0 := by omega
  rw [e2]
  simp only [if_true, if_neg hz0, ofRes_ok, pure_bind]

/-- C30: different numbers of cells are rejected without calling f. -/
theorem C30_dyadic_mismatch (uk : List α → Kind) (zero emptyEl : α) (zk : Kind → α) (f : Fn m (Val α)) (kl kr : Kind) (a b : Arr α)
    (q r : Nat) (hq : q < a.shape.length) (hr : r < b.shape.length)
    (hne : size (a.shape.take (a.shape.length - q)) ≠ size (b.shape.take (b.shape.length - r)))
    (h0 : 0 < size (a.shape.take (a.shape.length - q))) (h1 : 0 < size (b.shape.take (b.shape.length - r))) :
    rankDyadic uk zero emptyEl zk f (q : Int) (r : Int) (.arr kl a) (.arr kr b) = throw .err := by
  have hx : a.shape.take (a.shape.length - q) ≠ [] := by
    intro h
    have := congrArg List.length h
    simp at this; omega
  have hy : b.shape.take (b.shape.length - r) ≠ [] := by
    intro h
    have := congrArg List.length h
    simp at this; omega
  unfold rankDyadic
  simp only [normRank_ok _ _ (Nat.le_of_lt hq), normRank_ok _ _ (Nat.le_of_lt hr), ofRes_ok, pure_bind]
  simp only [subcells, prod_eq_size hx, prod_eq_size hy]
  rw [if_pos ⟨hne, h0, h1⟩]

/-- C30: a cell rank beyond the rank of the argument is rejected. -/
theorem C30_rank_range (uk : List α → Kind) (zero emptyEl : α) (zk : Kind → α) (f : Fn m (Val α)) (k : Kind) (a : Arr α) (p : Int)
    (h : (a.shape.length : Int) < p ∨ p < -(a.shape.length : Int)) :
    rankMonadic uk zero emptyEl zk f p (.arr k a) = throw .err := by
  unfold rankMonadic
  have : normRank a.shape.length p = .error .err := by
    unfold normRank
    simp only
    split
    · rw [if_pos (by omega)]
    · rw [if_pos (by omega)]
  simp only [this, ofRes_error, throw_bind']

/-! ### Deviations found -/

/-- Cells of rank ≥ 1 under a frame of two or more axes: the fifth cell of a 2×3 frame is already refused (the cell
number is compared with the length of one axis). -/
theorem C30_frame_rank2_fails (uk : List Int → Kind) (zk : Kind → Int) (f : Fn Id (Val Int)) (hf : ∀ v, f none v = pure (.scalar 0)) :
    rankMonadic uk 0 0 zk f 1 (.arr .int ⟨[2, 3, 1], [1, 2, 3, 4, 5, 6]⟩) = throw .err := by
  have h : ∀ i, subcell uk (Arr.mk [2, 3, 1] [1, 2, 3, 4, 5, 6]) 1 i = if 3 < i then .error .err else subcell uk (Arr.mk [2, 3, 1] [1, 2, 3, 4, 5, 6]) 1 i := by
    intro i
    split
    · rename_i hi
      unfold subcell
      simp [hi]
    · rfl
  simp only [rankMonadic, normRank, subcells]
  simp [forLoopM, ofRes_ok, prod, hf]
  have h4 := h 4
  simp at h4
  rw [h4]
  simp [subcell, forLoop, sliceAt, bind, Except.bind, pure, Except.pure, prod, ofRes, ExceptT.bind, ExceptT.mk, ExceptT.bindCont, throw, throwThe, MonadExceptOf.throw, hf]

/-- If the cell rank is the full rank, f is never called: the result is an array without axes and elements. -/
theorem C30_full_rank_not_applied (uk : List α → Kind) (zero emptyEl : α) (zk : Kind → α) (f : Fn m (Val α)) (k : Kind) (a : Arr α) :
    rankMonadic uk zero emptyEl zk f (a.shape.length : Int) (.arr k a) = pure (.arr (uk []) ⟨[], []⟩) := by
  unfold rankMonadic
  simp only [normRank_ok _ _ (Nat.le_refl _), ofRes_ok, pure_bind, subcells, Nat.sub_self, List.take_zero, prod, forLoopM]
  rfl

/-! ### Concrete case: rows of different length are padded -/
example : rankMonadic (m := Id) (α := Int) (fun _ => .int) 0 0 (fun _ => 0)
    (fun _ v => match v with | .arr k a => pure (.arr k ⟨[(a.data.headD 0).toNat], List.replicate (a.data.headD 0).toNat 7⟩) | v => pure v)
    1 (.arr .int ⟨[2, 2], [1, 0, 3, 0]⟩) = pure (.arr .int ⟨[2, 3], [7, 0, 0, 7, 7, 7]⟩) := by rfl
example : CellsReachable [2, 2] 1 := by right; decide
end Iv

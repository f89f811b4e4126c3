import Verif.Lemmas.FastNwise
/-
C25 reduction, C26 scan, C27 n-wise reduction.
`f` is any function with arbitrary failures and arbitrary effects in a monad `m`; `rfold`,
`prefixFolds`, `window`, `Arr.line` and `Arr.ofLines` are defined in Spec.lean.  `uk` is the
representation chosen for the result and plays no role in the claims.
-/
namespace Iv
variable {m : Type → Type} [Monad m] [LawfulMonad m] {α : Type}

/-- an axis argument selects axis `ax`: given directly, or counted from the end by a negative number -/
def RedAxis (rank : Nat) (axis : Int) (ax : Nat) : Prop :=
  (axis = (ax : Int) ∧ ax < rank) ∨ (axis < 0 ∧ axis + rank = ax)

theorem RedAxis.lt {rank : Nat} {axis : Int} {ax : Nat} (h : RedAxis rank axis ax) : ax < rank := by
  rcases h with ⟨_, h⟩ | ⟨h1, h2⟩ <;> omega

/-- C25: f/V is the right-to-left fold, for every f with any effects and failures: the calls are made
exactly in the order of the fold and the first failure ends the reduction.  A one-element vector gives
its element without a call. -/
theorem C25_vector (uk : List α → Kind) (ident : Option α) (f : α → α → ExceptT Fail m α) (k : Kind)
    (xs : List α) (hne : xs ≠ []) (axis : Int) (hax : RedAxis 1 axis 0) :
    reduct uk ident f (.arr k ⟨[xs.length], xs⟩) axis = (do let v ← rfold f xs; return .scalar v) := by
  unfold reduct
  simp only
  match xs, hne with
  | [x], _ =>
    rw [if_pos (by rfl)]
    rfl
  | x :: y :: ys, _ =>
    have hA : reduceAxis [(x :: y :: ys).length].length axis = .ok 0 := reduceAxis_ok hax
    rw [if_neg (by simp), if_neg (by simp), hA, ofRes_ok, pure_bind]
    unfold reductAxis
    have h0 : [(x :: y :: ys).length].getD 0 0 = (x :: y :: ys).length := rfl
    simp only [h0]
    rw [if_neg (by simp), if_neg (by simp), if_pos (by rfl)]
    have hl := forLoop_ok (body := fun i => sliceAt (x :: y :: ys) i) (g := fun i => (x :: y :: ys).getD i x) (x :: y :: ys).length (by
      intro i hi; rw [sliceAt_ok hi, getD_eq_getElem _ _ hi])
    rw [hl, ofRes_ok, pure_bind, ← list_eq_range_getD _ _ _ rfl, reduceVec_eq]

/-- C25: along an axis of length at least 2, the vectors along the axis are reduced independently, in
row-major order of the remaining axes, each by the right-to-left fold; the result has the remaining
axes. -/
theorem C25_axis (uk : List α → Kind) (ident : Option α) (f : α → α → ExceptT Fail m α) (k : Kind)
    (a : Arr α) (hw : a.WF) (hr : 2 ≤ a.shape.length) (axis : Int) (ax : Nat) (hax : RedAxis a.shape.length axis ax)
    (hn : 2 ≤ a.shape.getD ax 0) :
    reduct uk ident f (.arr k a) axis = (do
      let d ← (allIdx (a.shape.eraseIdx ax)).mapM (fun idx => rfold f (a.line ax idx))
      return .arr (uk d) ⟨a.shape.eraseIdx ax, d⟩) := by
  have hlt := hax.lt
  unfold reduct
  simp only
  rw [if_neg (by intro h; rw [h] at hr; simp at hr), if_neg (by intro h; rw [h] at hr; simp at hr),
    reduceAxis_ok hax, ofRes_ok, pure_bind]
  unfold reductAxis
  simp only
  rw [if_neg (by omega), if_neg (by omega), if_neg (by omega)]
  have hds : a.shape.eraseIdx ax ≠ [] := by
    intro h
    have := congrArg List.length h
    rw [List.length_eraseIdx, if_pos hlt] at this
    simp at this; omega
  rw [newIdxConverter_ok (by intro h; rw [h] at hr; simp at hr), ofRes_ok, pure_bind, prod_eq_size hds, odoLoopM_eq]
  congr 1
  apply mapM_congr'
  intro idx hidx
  obtain ⟨h1, _, _⟩ := readLine_eq hw hlt (mem_allIdx.1 hidx)
  simp only
  rw [h1, ofRes_ok, pure_bind, reduceVec_eq]

/-- C25: an axis of length 1 is only removed: no call is made, the elements stay. -/
theorem C25_axis_one (uk : List α → Kind) (ident : Option α) (f : α → α → ExceptT Fail m α) (k : Kind)
    (a : Arr α) (hw : a.WF) (hd : a.data ≠ []) (hr : 2 ≤ a.shape.length) (axis : Int) (ax : Nat)
    (hax : RedAxis a.shape.length axis ax) (hn : a.shape.getD ax 0 = 1) :
    reduct uk ident f (.arr k a) axis = pure (.arr k ⟨a.shape.eraseIdx ax, a.data⟩) ∧
      ∀ idx, InB (a.shape.eraseIdx ax) idx →
        (⟨a.shape.eraseIdx ax, a.data⟩ : Arr α).get? idx = a.get? (idx.insertIdx ax 0) := by
  have hlt := hax.lt
  have hds : a.shape.eraseIdx ax ≠ [] := by
    intro h
    have := congrArg List.length h
    rw [List.length_eraseIdx, if_pos hlt] at this
    simp at this; omega
  have hins : (a.shape.eraseIdx ax).insertIdx ax 1 = a.shape := by
    rw [← hn]; exact insertIdx_eraseIdx_getD hlt
  have hlE : (a.shape.eraseIdx ax).length = a.shape.length - 1 := by rw [List.length_eraseIdx, if_pos hlt]
  have hsz : a.data.length = size (a.shape.eraseIdx ax) := by
    rw [hw]
    conv => lhs; rw [← hins]
    rw [size_insertIdx _ _ _ (by omega)]; omega
  constructor
  · unfold reduct
    simp only
    rw [if_neg (by intro h; rw [h] at hr; simp at hr), if_neg (by intro h; rw [h] at hr; simp at hr),
      reduceAxis_ok hax, ofRes_ok, pure_bind]
    unfold reductAxis
    simp only
    rw [if_pos hn]
    obtain ⟨d, h1, h2, h3⟩ := reshapeArr_ok k a.data hd (a.shape.eraseIdx ax) hds
    have : d = a.data := by
      apply List.ext_getElem?
      intro i
      by_cases hi : i < size (a.shape.eraseIdx ax)
      · rw [h3 i hi, Nat.mod_eq_of_lt (by omega)]
      · rw [List.getElem?_eq_none (by omega), List.getElem?_eq_none (by omega)]
    rw [h1, ofRes_ok, this]
  · intro idx hidx
    have hil := hidx.length_eq
    have hin : InB a.shape (idx.insertIdx ax 0) := ((readLine_eq hw hlt hidx).2.2 0 (by omega)).1
    rw [Arr.get?_of_inB (by exact hidx), Arr.get?_of_inB hin]
    congr 1
    show flat (a.shape.eraseIdx ax) idx = _
    have := flat_insert1 (a.shape.eraseIdx ax) (idx.insertIdx ax 0) ax (by omega) (by rw [hins]; exact hin)
    rw [hins, List.eraseIdx_insertIdx_self] at this
    exact this.symm

/-- C25, element view: with a total pure function `f` every element of the reduced array is
`x1 f (x2 f (… f xn))` of the vector along the axis at that position. -/
theorem C25_element (uk : List α → Kind) (ident : Option α) (f : α → α → α) (k : Kind)
    (a : Arr α) (hw : a.WF) (hr : 2 ≤ a.shape.length) (axis : Int) (ax : Nat) (hax : RedAxis a.shape.length axis ax)
    (hn : 2 ≤ a.shape.getD ax 0) :
    ∃ r : Arr α, reduct (m := Id) uk ident (fun x y => pure (f x y)) (.arr k a) axis = pure (.arr (uk r.data) r) ∧
      r.WF ∧ r.shape = a.shape.eraseIdx ax ∧
      ∀ idx, InB r.shape idx → ∀ init last, a.line ax idx = init ++ [last] → r.get? idx = some (init.foldr f last) := by
  have hlt := hax.lt
  have hb : ∀ idx ∈ allIdx (a.shape.eraseIdx ax), ∃ v,
      rfold (m := Id) (fun x y => pure (f x y)) (a.line ax idx) = pure v ∧
        ∀ init last, a.line ax idx = init ++ [last] → v = init.foldr f last := by
    intro idx hidx
    obtain ⟨_, h2, _⟩ := readLine_eq hw hlt (mem_allIdx.1 hidx)
    have hne : a.line ax idx ≠ [] := by intro h; rw [h] at h2; rw [← h2] at hn; simp at hn
    have hsp := (List.dropLast_concat_getLast hne).symm
    refine ⟨(a.line ax idx).dropLast.foldr f ((a.line ax idx).getLast hne), ?_, ?_⟩
    · conv => lhs; rw [hsp]
      exact rfold_pure f _ _
    · intro init last h
      have h1 : (a.line ax idx).dropLast = init := by rw [h]; simp
      have h2 : (a.line ax idx).getLast hne = last := by simp [h]
      rw [h1, h2]
  obtain ⟨vs, h1, h2, h3⟩ := mapM_pure_ex (M := ExceptT Fail Id) hb
  rw [allIdx_length] at h2
  refine ⟨⟨a.shape.eraseIdx ax, vs⟩, ?_, h2, rfl, ?_⟩
  · rw [C25_axis uk ident _ k a hw hr axis ax hax hn, h1]
    rfl
  · intro idx hidx init last hline
    obtain ⟨v, hv, _, hp⟩ := h3 _ idx (allIdx_getElem? hidx)
    rw [Arr.get?_of_inB hidx]
    show vs[_]? = _
    rw [hv, hp init last hline]

/-- C25: scalars are returned unchanged, without a call. -/
theorem C25_scalar (uk : List α → Kind) (ident : Option α) (f : α → α → ExceptT Fail m α) (x : α) (axis : Int) :
    reduct uk ident f (.scalar x) axis = pure (.scalar x) := rfl

/-- C25: the reduction of `⍳0` is the identity item of the function, or an error if it has none; no
call is made. -/
theorem C25_empty (uk : List α → Kind) (f : α → α → ExceptT Fail m α) (x : α) (axis : Int) :
    reduct uk (some x) f .empty axis = pure (.scalar x) ∧ reduct uk none f .empty axis = throw .err :=
  ⟨pure_bind _ _, throw_bind' _ _⟩

/-- C25: an axis outside the array is rejected before any call. -/
theorem C25_bad_axis (uk : List α → Kind) (ident : Option α) (f : α → α → ExceptT Fail m α) (k : Kind) (a : Arr α)
    (h1 : a.shape ≠ [1]) (h0 : a.shape ≠ []) (axis : Int) (h : (a.shape.length : Int) ≤ axis ∨ axis < -a.shape.length) :
    reduct uk ident f (.arr k a) axis = throw .err := by
  unfold reduct
  simp only
  rw [if_neg h1, if_neg h0]
  have : reduceAxis a.shape.length axis = .error .err := by
    unfold reduceAxis
    simp only
    rw [if_pos]
    split <;> omega
  rw [this, ofRes_bind_error]

/-- Known deviation: the reduction of a zero-length concrete vector (such as `0⍴5`) is not the identity
item but an array without axes and elements. -/
theorem C25_zero_length_deviation (uk : List α → Kind) (f : α → α → ExceptT Fail m α) (x : α) (huk : ∀ l, uk l = .int) :
    reduct uk (some x) f (.arr .int ⟨[0], []⟩) (-1) = pure (.arr .int ⟨[], []⟩) := by
  unfold reduct
  simp only
  have hA : reduceAxis [0].length (-1) = .ok 0 := rfl
  rw [if_neg (by simp), if_neg (by simp), hA, ofRes_ok, pure_bind]
  unfold reductAxis needIdent
  simp only [List.getD_cons_zero, pure_bind, huk]
  rfl

/-- the hypotheses of `C25_axis` are met: difference reductions of a 2 by 3 matrix, and the calls it makes (state
monad logging the arguments) -/
example : RedAxis 2 (-1) 1 ∧ RedAxis 2 0 0 ∧ (⟨[2, 3], [1, 2, 3, 4, 5, 6]⟩ : Arr Int).WF ∧
    reduct (m := Id) (α := Int) (fun _ => Kind.int) none (fun x y => pure (x - y)) (.arr .int ⟨[2, 3], [1, 2, 3, 4, 5, 6]⟩) (-1)
      = pure (.arr .int ⟨[2], [2, 5]⟩) ∧
    (reduct (m := StateM (List (Int × Int))) (fun _ => Kind.int) none
      (fun x y => do modify (· ++ [(x, y)]); if x = 4 then throw .err else pure (x - y))
      (.arr .int ⟨[2, 3], [1, 2, 3, 4, 5, 6]⟩) 1).run []
      = (.error .err, [(2, 3), (1, -1), (5, 6), (4, -1)]) := by
  refine ⟨Or.inr (by decide), Or.inl (by decide), by decide, by rfl, by rfl⟩

/-- C26: the k-th item of f\V is f/k↑V; the prefixes are reduced from the shortest to the longest. -/
theorem C26_vector (uk : List α → Kind) (f : α → α → ExceptT Fail m α) (k : Kind)
    (xs : List α) (hne : xs ≠ []) (axis : Int) (hax : RedAxis 1 axis 0) :
    scanfunc uk f (.arr k ⟨[xs.length], xs⟩) axis = (do
      let d ← prefixFolds f xs
      return .arr (uk d) ⟨[d.length], d⟩) := by
  unfold scanfunc
  simp only
  have hA : reduceAxis [xs.length].length axis = .ok 0 := reduceAxis_ok hax
  rw [if_neg (by simp), hA, ofRes_ok, pure_bind]
  simp only [List.length_cons, List.length_nil]
  rw [if_pos trivial]
  have h0 : [xs.length].getD 0 0 = xs.length := rfl
  obtain ⟨x, hx⟩ : ∃ x, x ∈ xs := List.exists_mem_of_ne_nil _ hne
  have hl := forLoop_ok (body := fun i => sliceAt xs i) (g := fun i => xs.getD i x) xs.length (by
    intro i hi; rw [sliceAt_ok hi]; simp [List.getD, hi])
  rw [h0, hl, ofRes_ok, pure_bind, ← list_eq_range_getD _ _ _ rfl, scanVec_eq f hne]

/-- C26: on an array every vector along the axis is scanned, in row-major order of the other axes; the
result has the shape of the argument. -/
theorem C26_axis (uk : List α → Kind) (f : α → α → ExceptT Fail m α) (k : Kind)
    (a : Arr α) (hw : a.WF) (hr : 2 ≤ a.shape.length) (axis : Int) (ax : Nat) (hax : RedAxis a.shape.length axis ax)
    (hn : 0 < a.shape.getD ax 0) :
    scanfunc uk f (.arr k a) axis = (do
      let rows ← (allIdx (a.shape.eraseIdx ax)).mapM (fun idx => prefixFolds f (a.line ax idx))
      let r := Arr.ofLines a.shape ax rows
      return .arr (uk r.data) r) := by
  have hlt := hax.lt
  have hne : a.shape ≠ [] := by intro h; rw [h] at hr; simp at hr
  unfold scanfunc
  simp only
  rw [if_neg hne, reduceAxis_ok hax, ofRes_ok, pure_bind, if_neg (by omega),
    newIdxConverter_ok hne, ofRes_ok, pure_bind]
  simp only
  have hne' : a.shape.set ax 1 ≠ [] := by
    intro h; have := congrArg List.length h; simp at this; exact hne this
  rw [prod_eq_size hne, prod_eq_size hne']
  have := scanLoop_eq f a hw ax hlt hn
  rw [List.length_set] at this
  rw [← bind_assoc, this, bind_assoc]
  simp only [pure_bind]
  rfl

/-- C26, element view: with a pure total `f`, the element at `idx` is the right-to-left fold of the
vector along the axis up to and including position `idx[ax]`. -/
theorem C26_element (uk : List α → Kind) (f : α → α → α) (k : Kind)
    (a : Arr α) (hw : a.WF) (hr : 2 ≤ a.shape.length) (axis : Int) (ax : Nat) (hax : RedAxis a.shape.length axis ax)
    (hn : 0 < a.shape.getD ax 0) :
    ∃ r : Arr α, scanfunc (m := Id) uk (fun x y => pure (f x y)) (.arr k a) axis = pure (.arr (uk r.data) r) ∧
      r.WF ∧ r.shape = a.shape ∧
      ∀ idx, InB r.shape idx → ∀ init last, (a.line ax (idx.eraseIdx ax)).take (idx.getD ax 0 + 1) = init ++ [last] →
        r.get? idx = some (init.foldr f last) := by
  have hlt := hax.lt
  have hpre : ∀ v : List α, ∃ w, prefixFolds (m := Id) (fun x y => pure (f x y)) v = pure w ∧ (w.length = v.length ∧
      ∀ j, j < v.length → ∀ init last, v.take (j + 1) = init ++ [last] → w[j]? = some (init.foldr f last)) := by
    intro v
    have hbody : ∀ i ∈ List.range v.length, ∃ u, rfold (m := Id) (fun x y => pure (f x y)) (v.take (i + 1)) = pure u ∧
        ∀ init last, v.take (i + 1) = init ++ [last] → u = init.foldr f last := by
      intro i hi
      have hne : v.take (i + 1) ≠ [] := by
        intro h
        have := congrArg List.length h
        rw [List.length_take] at this
        have hi' := List.mem_range.1 hi
        simp only [List.length_nil] at this; omega
      have hsp := (List.dropLast_concat_getLast hne).symm
      refine ⟨(v.take (i + 1)).dropLast.foldr f ((v.take (i + 1)).getLast hne), ?_, ?_⟩
      · conv => lhs; rw [hsp]
        exact rfold_pure f _ _
      · intro init last h
        have h1 : (v.take (i + 1)).dropLast = init := by rw [h]; simp
        have h2 : (v.take (i + 1)).getLast hne = last := by simp [h]
        rw [h1, h2]
    obtain ⟨w, h1, h2, h3⟩ := mapM_pure_ex (M := ExceptT Fail Id) hbody
    refine ⟨w, h1, by simpa using h2, ?_⟩
    intro j hj init last h
    obtain ⟨u, hu, _, hp⟩ := h3 j j (by simp [hj])
    rw [hu, hp init last h]
  obtain ⟨rows, h1, h2, h3⟩ := mapM_pure_ex (M := ExceptT Fail Id) (l := allIdx (a.shape.eraseIdx ax))
    (g := fun idx => prefixFolds (fun x y => pure (f x y)) (a.line ax idx))
    (P := fun idx w => w.length = (a.line ax idx).length ∧
      ∀ j, j < (a.line ax idx).length → ∀ init last, (a.line ax idx).take (j + 1) = init ++ [last] → w[j]? = some (init.foldr f last))
    (fun idx _ => hpre (a.line ax idx))
  have hrl : rows.length = size (a.shape.eraseIdx ax) := by rw [h2, allIdx_length]
  have hrow : ∀ r ∈ rows, r.length = a.shape.getD ax 0 := by
    intro r hr
    obtain ⟨i, hi⟩ := List.getElem?_of_mem hr
    have hil : i < (allIdx (a.shape.eraseIdx ax)).length := by
      have := (List.getElem?_eq_some_iff.1 hi).1; omega
    obtain ⟨v, hv, _, hp⟩ := h3 i _ (List.getElem?_eq_getElem hil)
    rw [hi] at hv; cases hv
    rw [hp.1]
    exact (readLine_eq hw hlt (mem_allIdx.1 (List.getElem_mem hil))).2.1
  obtain ⟨o1, o2⟩ := ofLines_spec hlt rows hrl hrow
  refine ⟨Arr.ofLines a.shape ax rows, ?_, o1, rfl, ?_⟩
  · rw [C26_axis uk _ k a hw hr axis ax hax hn, h1]
    rfl
  · intro idx hidx init last hpl
    rw [o2 idx hidx]
    have hE := InB_eraseIdx (show InB a.shape idx from hidx) ax
    obtain ⟨v, hv, _, hp⟩ := h3 _ _ (allIdx_getElem? hE)
    rw [hv]
    simp only [Option.bind_some]
    apply hp.2 _ _ init last hpl
    rw [(readLine_eq hw hlt hE).2.1]
    exact (show InB a.shape idx from hidx).getD_lt hlt

/-- C26: scalars and `⍳0` are returned unchanged. -/
theorem C26_scalar_empty (uk : List α → Kind) (f : α → α → ExceptT Fail m α) (x : α) (axis : Int) :
    scanfunc uk f (.scalar x) axis = pure (.scalar x) ∧ scanfunc uk f .empty axis = pure .empty := ⟨rfl, rfl⟩

/-- Known deviation: scanning a zero-length concrete vector fails (reads its first element). -/
theorem C26_zero_length_panics (uk : List α → Kind) (f : α → α → ExceptT Fail m α) (k : Kind) :
    scanfunc uk f (.arr k ⟨[0], []⟩) (-1) = throw .panic := by
  unfold scanfunc
  simp only
  have hA : reduceAxis [0].length (-1) = .ok 0 := rfl
  rw [if_neg (by simp), hA, ofRes_ok, pure_bind]
  simp only [List.length_cons, List.length_nil]
  rw [if_pos trivial]
  simp only [List.getD_cons_zero, forLoop, ofRes_ok, pure_bind, scanVec]
  exact throw_bind' _ _

example : scanfunc (m := Id) (α := Int) (fun _ => Kind.int) (fun x y => pure (x - y)) (.arr .int ⟨[2, 3], [1, 2, 3, 4, 5, 6]⟩) (-1)
      = pure (.arr .int ⟨[2, 3], [1, -1, 2, 4, -1, 5]⟩) ∧
    (⟨[2, 3], [1, 2, 3, 4, 5, 6]⟩ : Arr Int).WF ∧ RedAxis 2 (-1) 1 := by
  refine ⟨by rfl, by decide, Or.inr (by decide)⟩

end Iv

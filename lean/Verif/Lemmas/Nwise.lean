import Verif.Lemmas.Reduce
import Verif.Model.Int
namespace Iv
variable {m : Type → Type} [Monad m] [LawfulMonad m] {α : Type}

theorem fastLoop_len {β} (f g : α → α → ExceptT Fail m α) (n : Nat) (vec : List α) (cnt i : Nat)
    (st : Option (α × List α × Nat)) (k k' : List α → ExceptT Fail m β)
    (h : ∀ v, v.length = cnt → k v = k' v) : (fastLoop f g n vec cnt i st >>= k) = (fastLoop f g n vec cnt i st >>= k') := by
  induction cnt generalizing i st k k' with
  | zero => simp only [fastLoop, pure_bind]; exact h [] rfl
  | succ cnt ih =>
    simp only [fastLoop, bind_assoc, pure_bind]
    congr 1
    funext s
    apply ih
    intro v hv
    exact h _ (by simp [hv])

theorem applyNwise_slow (f : α → α → ExceptT Fail m α) (n : Nat) (vec : List α) :
    forLoopM (fun i => windowReduce f ((vec.drop i).take n)) (vec.length + 1 - n) 0 =
      (List.range (vec.length + 1 - n)).mapM (fun i => rfold f (window vec n i)) := by
  rw [forLoopM_eq]
  apply mapM_congr'
  intro i _
  exact reduceVec_eq _ _

theorem applyNwise_len {β} (f : α → α → ExceptT Fail m α) (g) (n : Nat) (vec : List α) (k k' : List α → ExceptT Fail m β)
    (h : ∀ v, v.length = vec.length + 1 - n → k v = k' v) : (applyNwise f g n vec >>= k) = (applyNwise f g n vec >>= k') := by
  have hs : (forLoopM (fun i => windowReduce f ((vec.drop i).take n)) (vec.length + 1 - n) 0 >>= k) =
      (forLoopM (fun i => windowReduce f ((vec.drop i).take n)) (vec.length + 1 - n) 0 >>= k') := by
    rw [forLoopM_eq]
    apply mapM_bind_len
    intro v hv
    apply h
    rw [hv, List.length_range]
  unfold applyNwise
  cases g with
  | none => exact hs
  | some g =>
    simp only
    split
    · exact fastLoop_len _ _ _ _ _ _ _ _ _ h
    · exact hs

/-- one row of the n-wise reduction -/
def nwRow (f : α → α → ExceptT Fail m α) (g : Option (α → α → ExceptT Fail m α)) (n : Nat) (neg : Bool)
    (line : List α) : ExceptT Fail m (List α) :=
  if neg then do
    let r ← applyNwise f g n line.reverse
    pure r.reverse
  else applyNwise f g n line

theorem nwiseLoop_eq (f : α → α → ExceptT Fail m α) (g : Option (α → α → ExceptT Fail m α)) (n : Nat) (neg : Bool)
    (a : Arr α) (hw : a.WF) (ax : Nat) (hk : ax < a.shape.length)
    (hn : 0 < n) (hna : n ≤ a.shape.getD ax 0) :
    (do let res ← nwiseLoop f g n neg a (strides a.shape) (strides (a.shape.set ax (a.shape.getD ax 0 - n + 1))) (a.shape.set ax 1)
          ax (a.shape.getD ax 0) (size (a.shape.set ax 1))
          (List.replicate (a.shape.set ax 1).length 0) (List.replicate (size (a.shape.set ax (a.shape.getD ax 0 - n + 1))) none)
        ofRes (noNil res) : ExceptT Fail m (List α)) =
      (do let rows ← (allIdx (a.shape.eraseIdx ax)).mapM (fun idx => nwRow f g n neg (a.line ax idx))
          pure (Arr.ofLines (a.shape.set ax (a.shape.getD ax 0 - n + 1)) ax rows).data) := by
  let t := a.shape.set ax (a.shape.getD ax 0 - n + 1)
  let N := a.shape.getD ax 0
  have hkt : ax < t.length := by simp [t, hk]
  have htN : t.getD ax 0 = N - n + 1 := by
    show (a.shape.set ax _).getD ax 0 = _
    rw [getD_set, if_pos ⟨rfl, hk⟩]
  have hte : t.eraseIdx ax = a.shape.eraseIdx ax := eraseIdx_set_self _ _ _
  have h := idxLoop_eq (M := ExceptT Fail m) (a.shape.set ax 1)
    (fun idx => do
      let vec ← ofRes (forLoop (fun k => sliceAt a.data (icIndex (strides a.shape) (idx.set ax (if neg then N - 1 - k else k)))) N 0)
      applyNwise f g n vec)
    (fun idx (r : List (Option α)) vals => applySets r ((vals.zipIdx).map (fun p =>
      (icIndex (strides t) (idx.set ax (if neg then N - n - p.2 else p.2)), some p.1))))
    (nwiseLoop f g n neg a (strides a.shape) (strides t) (a.shape.set ax 1) ax N)
    (fun idx r => rfl) (fun c idx r => by rw [nwiseLoop, bind_assoc]) (List.replicate (size t) none)
  rw [h, bind_assoc]
  simp only [pure_bind]
  rw [allIdx_set1 _ _ hk, mapM_map']
  have hrow : ∀ idx ∈ allIdx (a.shape.eraseIdx ax),
      (do let vec ← ofRes (forLoop (fun k => sliceAt a.data (icIndex (strides a.shape) ((idx.insertIdx ax 0).set ax (if neg then N - 1 - k else k)))) N 0)
          applyNwise f g n vec : ExceptT Fail m (List α)) = applyNwise f g n (if neg then (a.line ax idx).reverse else a.line ax idx) := by
    intro idx hidx
    have hb := mem_allIdx.1 hidx
    have hl := hb.length_eq
    rw [List.length_eraseIdx, if_pos hk] at hl
    obtain ⟨h1, h2, h3⟩ := readLine_eq hw hk hb
    have hfl : forLoop (fun k => sliceAt a.data (icIndex (strides a.shape) ((idx.insertIdx ax 0).set ax (if neg then N - 1 - k else k)))) N 0 =
        .ok (if neg then (a.line ax idx).reverse else a.line ax idx) := by
      obtain ⟨d, e1, e2, e3⟩ := forLoop_ex (body := fun k => sliceAt a.data (icIndex (strides a.shape) ((idx.insertIdx ax 0).set ax (if neg then N - 1 - k else k))))
        N (by
          intro k hkk
          have hk2 : (if neg then N - 1 - k else k) < N := by split <;> omega
          obtain ⟨b1, b2⟩ := h3 _ hk2
          rw [insertIdx_set_self _ _ _ _ (by omega), icIndex_strides b1.length_eq]
          exact ⟨_, sliceAt_ok (by rw [hw]; exact flat_lt b1)⟩)
      rw [e1]
      congr 1
      apply List.ext_getElem?
      intro k
      by_cases hkN : k < N
      · obtain ⟨v, hv, hd⟩ := e3 k hkN
        rw [hd]
        have hk2 : (if neg then N - 1 - k else k) < N := by split <;> omega
        obtain ⟨b1, b2⟩ := h3 _ hk2
        rw [insertIdx_set_self _ _ _ _ (by omega), icIndex_strides b1.length_eq, sliceAt_eq_ok, ← Arr.get?_of_inB b1, ← b2] at hv
        cases neg with
        | false => exact hv.symm
        | true =>
          simp only [if_true] at hv ⊢
          rw [List.getElem?_reverse (by omega), h2]
          exact hv.symm
      · rw [List.getElem?_eq_none (by omega)]
        rw [List.getElem?_eq_none (by
          have : (if neg then (a.line ax idx).reverse else a.line ax idx).length = N := by
            split <;> simp [h2, N]
          omega)]
    rw [hfl, ofRes_ok, pure_bind]
  rw [mapM_congr' hrow]
  have hlen : ∀ idx ∈ allIdx (a.shape.eraseIdx ax), (if neg then (a.line ax idx).reverse else a.line ax idx).length + 1 - n = N - n + 1 := by
    intro idx hidx
    obtain ⟨_, h2, _⟩ := readLine_eq hw hk (mem_allIdx.1 hidx)
    have : (if neg then (a.line ax idx).reverse else a.line ax idx).length = N := by split <;> simp [h2, N]
    omega
  have hmain : ∀ rows : List (List α), rows.length = (allIdx (a.shape.eraseIdx ax)).length → (∀ r ∈ rows, r.length = N - n + 1) →
      noNil ((((allIdx (a.shape.eraseIdx ax)).map (fun idx => idx.insertIdx ax 0)).zip rows).foldl (fun r p => applySets r ((p.2.zipIdx).map (fun q =>
        (icIndex (strides t) (p.1.set ax (if neg then N - n - q.2 else q.2)), some q.1)))) (List.replicate (size t) none)) =
      .ok (Arr.ofLines t ax (if neg then rows.map List.reverse else rows)).data := by
    intro rows hl hrows
    rw [allIdx_length, ← hte] at hl
    have hrows' : ∀ r ∈ rows, r.length = t.getD ax 0 := by rw [htN]; exact hrows
    rw [foldl_applySets (w := fun p : List Nat × List α => p.2.zipIdx.map (fun q => (icIndex (strides t) (p.1.set ax (if neg then N - n - q.2 else q.2)), some q.1)))]
    rw [List.zip_map_left, List.flatMap_map]
    have hfm : (List.flatMap (fun x : List Nat × List α =>
          List.map (fun q => (icIndex (strides t) ((Prod.map (fun idx => List.insertIdx idx ax 0) id x).1.set ax (if neg then N - n - q.2 else q.2)), some q.1))
            (Prod.map (fun idx => List.insertIdx idx ax 0) id x).2.zipIdx) ((allIdx (a.shape.eraseIdx ax)).zip rows)) =
        ((allIdx (t.eraseIdx ax)).zip rows).flatMap (fun p =>
        (p.2.zipIdx).map (fun q => (flat t (p.1.insertIdx ax (if neg then t.getD ax 0 - 1 - q.2 else q.2)), some q.1))) := by
      rw [hte]
      apply flatMap_congr'
      intro p hp
      have hb : InB (a.shape.eraseIdx ax) p.1 := mem_allIdx.1 (List.of_mem_zip hp).1
      have hl' := hb.length_eq
      rw [List.length_eraseIdx, if_pos hk] at hl'
      apply List.map_congr_left
      intro q hq
      simp only [Prod.map]
      rw [insertIdx_set_self _ _ _ _ (by omega), icIndex_strides, htN]
      · congr 3
      · rw [List.length_insertIdx, if_pos (by omega)]
        show p.1.length + 1 = (a.shape.set ax _).length
        rw [List.length_set]
        omega
    rw [hfm]
    cases neg with
    | false => exact scatter_noNil hkt rows hl hrows'
    | true => exact scatter_noNil_rev hkt rows hl hrows'
  cases neg with
  | false =>
    simp only [Bool.false_eq_true, if_false] at *
    unfold nwRow
    simp only [Bool.false_eq_true, if_false]
    apply mapM_bind_congr _ _ (fun r => r.length = N - n + 1)
    · intro idx hidx k k' hkk
      apply applyNwise_len
      intro v hv
      exact hkk v (by rw [hv, hlen idx hidx])
    · intro rows hl hrows
      rw [← ofRes_ok, ← hmain rows hl hrows]
  | true =>
    simp only [if_true] at *
    unfold nwRow
    simp only [if_true]
    have hsplit : (allIdx (a.shape.eraseIdx ax)).mapM (fun idx => (do
        let r ← applyNwise f g n (a.line ax idx).reverse; pure r.reverse : ExceptT Fail m (List α))) =
        (do let rows ← (allIdx (a.shape.eraseIdx ax)).mapM (fun idx => applyNwise f g n (a.line ax idx).reverse)
            pure (rows.map List.reverse)) := by
      generalize allIdx (a.shape.eraseIdx ax) = l
      induction l with
      | nil => simp
      | cons x xs ih =>
        rw [List.mapM_cons, List.mapM_cons, ih]
        simp only [bind_assoc, pure_bind, List.map_cons]
    rw [hsplit, bind_assoc]
    simp only [pure_bind]
    apply mapM_bind_congr _ _ (fun r => r.length = N - n + 1)
    · intro idx hidx k k' hkk
      apply applyNwise_len
      intro v hv
      exact hkk v (by rw [hv, hlen idx hidx])
    · intro rows hl hrows
      rw [← ofRes_ok, ← hmain rows hl hrows]

end Iv

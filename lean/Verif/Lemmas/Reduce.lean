import Verif.Lemmas.Lines
namespace Iv
variable {m : Type → Type} [Monad m] [LawfulMonad m] {α : Type}

theorem flatMap_congr' {β γ} {l : List β} {f g : β → List γ} (h : ∀ x ∈ l, f x = g x) :
    l.flatMap f = l.flatMap g := by
  induction l with
  | nil => rfl
  | cons x xs ih => simp only [List.flatMap_cons, h x (by simp), ih (fun y hy => h y (by simp [hy]))]

theorem scanVec_eq (f : α → α → ExceptT Fail m α) {vec : List α} (h : vec ≠ []) :
    scanVec f vec = prefixFolds f vec := by
  match vec, h with
  | x :: xs, _ =>
    unfold scanVec prefixFolds
    simp only
    rw [forLoopM_aux]
    have : List.range (x :: xs).length = 0 :: List.range' 1 xs.length := by
      rw [List.range_eq_range', List.length_cons, List.range'_succ]
    rw [this, List.mapM_cons]
    simp only [List.take_succ_cons, List.take_zero, rfold, pure_bind, List.length_cons, Nat.add_sub_cancel]
    congr 1
    apply mapM_congr'
    intro i hi
    exact reduceVec_eq _ _

theorem reduceAxis_ok {rank : Nat} {axis : Int} {ax : Nat}
    (h : (axis = (ax : Int) ∧ ax < rank) ∨ (axis < 0 ∧ axis + rank = ax)) : reduceAxis rank axis = .ok ax := by
  unfold reduceAxis
  simp only
  rcases h with ⟨h1, h2⟩ | ⟨h1, h2⟩
  · rw [if_neg (by omega), if_neg (by omega)]; congr 1; omega
  · rw [if_pos h1, if_neg (by omega)]; congr 1; omega

/-- the loop of scan: first all scans, then the assembled array -/
theorem scanLoop_eq (f : α → α → ExceptT Fail m α) (a : Arr α) (hw : a.WF) (ax : Nat) (hk : ax < a.shape.length)
    (hn : 0 < a.shape.getD ax 0) :
    (do let res ← scanLoop f a (strides a.shape) (a.shape.set ax 1) ax (a.shape.getD ax 0) (size (a.shape.set ax 1))
          (List.replicate (a.shape.set ax 1).length 0) (List.replicate (size a.shape) none)
        ofRes (noNil res) : ExceptT Fail m (List α)) =
      (do let rows ← (allIdx (a.shape.eraseIdx ax)).mapM (fun idx => prefixFolds f (a.line ax idx))
          pure (Arr.ofLines a.shape ax rows).data) := by
  have h := idxLoop_eq (M := ExceptT Fail m) (a.shape.set ax 1)
    (fun idx => do
      let vec ← ofRes (forLoop (fun k => sliceAt a.data (icIndex (strides a.shape) (idx.set ax k))) (a.shape.getD ax 0) 0)
      scanVec f vec)
    (fun idx (r : List (Option α)) vals => writeLine (strides a.shape) ax idx r vals)
    (scanLoop f a (strides a.shape) (a.shape.set ax 1) ax (a.shape.getD ax 0))
    (fun idx r => rfl) (fun c idx r => by rw [scanLoop, bind_assoc]) (List.replicate (size a.shape) none)
  rw [h, bind_assoc]
  simp only [pure_bind]
  rw [allIdx_set1 _ _ hk, mapM_map']
  have hrow : ∀ idx ∈ allIdx (a.shape.eraseIdx ax),
      (do let vec ← ofRes (forLoop (fun k => sliceAt a.data (icIndex (strides a.shape) ((idx.insertIdx ax 0).set ax k))) (a.shape.getD ax 0) 0)
          scanVec f vec : ExceptT Fail m (List α)) = prefixFolds f (a.line ax idx) := by
    intro idx hidx
    have hb := mem_allIdx.1 hidx
    have hl := hb.length_eq
    rw [List.length_eraseIdx, if_pos hk] at hl
    obtain ⟨h1, h2, _⟩ := readLine_eq hw hk hb
    unfold readLine at h1
    have : (fun k => sliceAt a.data (icIndex (strides a.shape) ((idx.insertIdx ax 0).set ax k))) =
        (fun i => sliceAt a.data (icIndex (strides a.shape) (idx.take ax ++ i :: idx.drop ax))) := by
      funext i
      rw [insertIdx_set_self _ _ _ _ (by omega), insertIdx_take_drop _ _ _ (by omega)]
    rw [this, h1, ofRes_ok, pure_bind, scanVec_eq]
    intro h; rw [h] at h2; rw [← h2] at hn; simp at hn
  rw [mapM_congr' hrow]
  apply mapM_bind_congr _ _ (fun r => r.length = a.shape.getD ax 0)
  · intro idx hidx k k' hkk
    unfold prefixFolds
    apply mapM_bind_len
    intro vs hvs
    obtain ⟨_, h2, _⟩ := readLine_eq hw hk (mem_allIdx.1 hidx)
    apply hkk
    rw [hvs, List.length_range, h2]
  · intro rows hl hrows
    rw [allIdx_length] at hl
    have := scatter_noNil hk rows hl hrows
    rw [← ofRes_ok, ← this]
    congr 2
    unfold writeLine
    rw [foldl_applySets (w := fun p : List Nat × List α => p.2.zipIdx.map (fun q => (icIndex (strides a.shape) (p.1.set ax q.2), some q.1)))]
    congr 1
    rw [List.zip_map_left, List.flatMap_map]
    apply flatMap_congr'
    intro p hp
    have hb : InB (a.shape.eraseIdx ax) p.1 := mem_allIdx.1 (List.of_mem_zip hp).1
    have hl' := hb.length_eq
    rw [List.length_eraseIdx, if_pos hk] at hl'
    apply List.map_congr_left
    intro q hq
    simp only [Prod.map]
    rw [insertIdx_set_self _ _ _ _ (by omega), icIndex_strides]
    rw [List.length_insertIdx, if_pos (by omega)]
    show p.1.length + 1 = _
    omega

end Iv

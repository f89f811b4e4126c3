import Verif.Lemmas.Shape
/-
C01, C02: index arithmetic.
-/
namespace Iv

/-- C01.  For a shape of any rank ≥ 1: the converter returned by `NewIdxConverter` turns every
offset below the element count into an in-range index vector and back to the same offset; and every
in-range index vector into an offset below the element count, namely its row-major position,
and back to the same index vector. -/
theorem C01_index_roundtrip (shape : List Nat) (hne : shape ≠ []) :
    ∃ ic zero, newIdxConverter shape = .ok (ic, zero) ∧
      (∀ k, k < size shape →
        InB shape (icIndexes ic k) ∧ icIndex ic (icIndexes ic k) = k) ∧
      (∀ idx, InB shape idx →
        icIndex ic idx < size shape ∧ icIndex ic idx = flat shape idx ∧
        icIndexes ic (icIndex ic idx) = idx) := by
  cases shape with
  | nil => exact absurd rfl hne
  | cons n ns =>
    refine ⟨strides (n :: ns), List.replicate (n :: ns).length 0, rfl, ?_, ?_⟩
    · intro k hk
      rw [icIndexes_strides]
      refine ⟨unflat_inB hk, ?_⟩
      rw [icIndex_strides (by simp), flat_unflat hk]
    · intro idx h
      rw [icIndex_strides h.length_eq, icIndexes_strides]
      exact ⟨flat_lt h, rfl, unflat_flat h⟩

/-- the element count used by the code is the mathematical one for every rank ≥ 1 -/
theorem C01_prod_is_count (shape : List Nat) (hne : shape ≠ []) : prod shape = size shape :=
  prod_eq_size hne

/-- An empty shape makes the converter panic: no such converter is ever used. -/
theorem C01_rank0_panics : newIdxConverter [] = .error .panic := rfl

example : InB [2, 3] [1, 2] ∧ icIndex (strides [2, 3]) [1, 2] = 5 ∧ icIndexes (strides [2, 3]) 5 = [1, 2] := by
  decide

/-- C02.  Stepping `k` times from the zero index vector reaches the index vector of offset `k`, for
every offset; in particular every in-range index vector is reached at exactly one step count below
the element count, in row-major order, and after all elements the vector is zero again. -/
theorem C02_odometer (shape : List Nat) :
    (∀ k, k < size shape →
      flat shape (incTimes shape k (List.replicate shape.length 0)) = k ∧
      InB shape (incTimes shape k (List.replicate shape.length 0))) ∧
    (∀ idx, InB shape idx →
      ∃ k, k < size shape ∧ incTimes shape k (List.replicate shape.length 0) = idx ∧
        ∀ k', k' < size shape → incTimes shape k' (List.replicate shape.length 0) = idx → k' = k) ∧
    (0 < size shape →
      incTimes shape (size shape) (List.replicate shape.length 0) = List.replicate shape.length 0) := by
  have key : ∀ k, 0 < size shape → incTimes shape k (List.replicate shape.length 0)
      = unflat shape (k % size shape) := by
    intro k h
    rw [← unflat_zero, incTimes_unflat h, Nat.zero_add]
  refine ⟨?_, ?_, ?_⟩
  · intro k hk
    rw [key k (by omega), Nat.mod_eq_of_lt hk]
    exact ⟨flat_unflat hk, unflat_inB hk⟩
  · intro idx h
    have hp := h.size_pos
    have hf := flat_lt h
    refine ⟨flat shape idx, hf, ?_, ?_⟩
    · rw [key _ hp, Nat.mod_eq_of_lt hf, unflat_flat h]
    · intro k' hk' e
      rw [key _ hp, Nat.mod_eq_of_lt hk'] at e
      rw [← e, flat_unflat hk']
  · intro hp
    rw [key _ hp, Nat.mod_self, unflat_zero]

example : (List.range 6).map (fun k => incTimes [2, 3] k [0, 0]) =
    [[0,0],[0,1],[0,2],[1,0],[1,1],[1,2]] ∧ incTimes [2,3] 6 [0,0] = [0,0] := by decide

end Iv

import Verif.Model.Reverse
import Verif.Lemmas.Gather
/-
C08: reverse.
-/
namespace Iv

/-- C08.  Reversing any well-formed array of rank ≥ 1 along any of its axes succeeds, keeps the
shape, and the element at index vector `i` is `A`'s element at `i` with component `k` mirrored. -/
theorem C08_reverse {α} (a : Arr α) (k : Nat) (hw : a.WF) (hk : k < a.shape.length) :
    ∃ r, reverseArr a k = .ok r ∧ r.WF ∧ r.shape = a.shape ∧
      ∀ idx, InB a.shape idx →
        r.get? idx = a.get? (idx.set k (a.shape.getD k 0 - 1 - idx.getD k 0)) ∧
        InB a.shape (idx.set k (a.shape.getD k 0 - 1 - idx.getD k 0)) := by
  have hne : a.shape ≠ [] := by intro h; rw [h] at hk; simp at hk
  have hf : ∀ idx, InB a.shape idx → InB a.shape (idx.set k (a.shape.getD k 0 - idx.getD k 0 - 1)) := by
    intro idx h
    apply InB_set h
    have := h.getD_lt hk; omega
  obtain ⟨r, h1, h2, h3, h4⟩ := odo_gather hw (s := a.shape)
    (f := fun dst => dst.set k (a.shape.getD k 0 - dst.getD k 0 - 1))
    (body := fun _ dst =>
      let src := dst.set k (a.shape.getD k 0 - dst.getD k 0 - 1)
      sliceAt a.data (icIndex (strides a.shape) src)) (fun idx _ => rfl) hf
  refine ⟨r, ?_, h3, h2, ?_⟩
  · unfold reverseArr
    simp only [newIdxConverter_ok hne, bind, Except.bind, prod_eq_size hne]
    rw [h1]
    simp only [pure, Except.pure, ← h2]
  · intro idx hidx
    have e : a.shape.getD k 0 - 1 - idx.getD k 0 = a.shape.getD k 0 - idx.getD k 0 - 1 := by omega
    rw [e]
    exact ⟨h4 idx hidx, hf idx hidx⟩

/-- C08.  `⌽[k]⌽[k]A` is `A`. -/
theorem C08_involution {α} (a : Arr α) (k : Nat) (hw : a.WF) (hk : k < a.shape.length) :
    (reverseArr a k >>= fun r => reverseArr r k) = .ok a := by
  obtain ⟨r, h1, h2, h3, h4⟩ := C08_reverse a k hw hk
  obtain ⟨q, g1, g2, g3, g4⟩ := C08_reverse r k h2 (by rw [h3]; exact hk)
  rw [h1]
  simp only [bind, Except.bind]
  rw [g1]
  congr 1
  apply Arr.ext_get g2 hw (by rw [g3, h3])
  intro i hi
  rw [g3, h3] at hi
  rw [(g4 i (by rw [h3]; exact hi)).1]
  have hin : InB a.shape (i.set k (a.shape.getD k 0 - 1 - i.getD k 0)) := (h4 i hi).2
  rw [h3, (h4 _ hin).1]
  congr 1
  have hb := hi.getD_lt hk
  rw [getD_set, if_pos ⟨rfl, by rw [hi.length_eq]; exact hk⟩, List.set_set]
  have : a.shape.getD k 0 - 1 - (a.shape.getD k 0 - 1 - i.getD k 0) = i.getD k 0 := by omega
  rw [this]
  exact set_getD_self

/-- C08: for a vector, `⌽V` is the reversed element sequence. -/
theorem C08_vector {α} (v : List α) : reverseArr ⟨[v.length], v⟩ 0 = .ok ⟨[v.length], v.reverse⟩ := by
  obtain ⟨r, h1, h2, h3, h4⟩ := C08_reverse ⟨[v.length], v⟩ 0 (by simp [Arr.WF, size]) (by simp)
  rw [h1]
  congr 1
  refine vec_eq h2 h3 (by simp) ?_
  intro i hi
  have h := (h4 [i] (by simp [InB, hi])).1
  simp only [List.set_cons_zero, List.getD_cons_zero] at h
  rw [get?_vec_lt h3 hi, get?_vec_lt (n := v.length) rfl (by omega)] at h
  rw [h, List.getElem?_reverse hi]

/-- C08: through the primitive: `⌽` mirrors the last, `⊖` the first axis; scalars are returned
unchanged; an axis outside the rank is rejected. -/
theorem C08_primitive {α} (kd : Kind) (a : Arr α) (axis : Int) :
    reverse (.arr kd a) axis =
      (if -(a.shape.length : Int) ≤ axis ∧ axis < a.shape.length then
        (reverseArr a ((if axis < 0 then (a.shape.length : Int) + axis else axis).toNat)).map (Val.arr kd)
       else .error .err) := by
  unfold reverse normAxis
  by_cases h : -(a.shape.length : Int) ≤ axis ∧ axis < a.shape.length
  · rw [if_pos h]
    have : ¬ ((if axis < 0 then (a.shape.length : Int) + axis else axis) < 0 ∨
        (a.shape.length : Int) ≤ (if axis < 0 then (a.shape.length : Int) + axis else axis)) := by
      split <;> omega
    simp only [this, if_false, bind, Except.bind]
    cases reverseArr a (if axis < 0 then (a.shape.length : Int) + axis else axis).toNat <;> rfl
  · rw [if_neg h]
    have : ((if axis < 0 then (a.shape.length : Int) + axis else axis) < 0 ∨
        (a.shape.length : Int) ≤ (if axis < 0 then (a.shape.length : Int) + axis else axis)) := by
      split <;> omega
    simp only [this, if_true, bind, Except.bind]

/-- "Reversing twice gives the argument for every array" is FALSE for the empty array: `⌽⍳0` is
rejected. -/
theorem C08_empty_rejected {α} : reverse (.empty : Val α) (-1) = .error .err := by
  rfl

example : reverseArr (⟨[2, 3], [1, 2, 3, 4, 5, 6]⟩ : Arr Nat) 1 = .ok ⟨[2, 3], [3, 2, 1, 6, 5, 4]⟩ ∧
  (⟨[2, 3], [1, 2, 3, 4, 5, 6]⟩ : Arr Nat).WF := by decide

end Iv

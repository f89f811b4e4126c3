import Verif.Model.Scalar
import Verif.Lemmas.Effect
import Verif.Lemmas.Gather
import Verif.Lemmas.TakeDrop
/-
C33: scalar functions conform and extend.  `f` is the elementary function on two elements, arbitrary
and possibly failing.
-/
namespace Iv
variable {α : Type}

theorem forLoop_eq_M {β} (body : Nat → Res β) (n i : Nat) : forLoop body n i = forLoopM (M := Except Fail) body n i := by
  induction n generalizing i with
  | zero => rfl
  | succ n ih => simp only [forLoop, forLoopM, ih]

theorem odoLoop_eq_M {β} (s : List Nat) (body : Nat → List Nat → Res β) (n i : Nat) (idx : List Nat) :
    odoLoop s body n i idx = odoLoopM (M := Except Fail) s body n i idx := by
  induction n generalizing i idx with
  | zero => rfl
  | succ n ih => simp only [odoLoop, odoLoopM, ih]

theorem forLoop_mapM {β} (body : Nat → Res β) (n : Nat) : forLoop body n 0 = (List.range n).mapM body := by
  rw [forLoop_eq_M, forLoopM_eq]

theorem mapM_ok_get {β γ} {g : β → Res γ} {l : List β} {d : List γ} (h : l.mapM g = .ok d) :
    d.length = l.length ∧ ∀ (i : Nat) x, l[i]? = some x → ∃ y, g x = .ok y ∧ d[i]? = some y := by
  induction l generalizing d with
  | nil => simp [pure, Except.pure] at h; subst h; simp
  | cons a l ih =>
    rw [List.mapM_cons] at h
    cases hg : g a with
    | error e => rw [hg] at h; cases h
    | ok y =>
      rw [hg] at h
      cases hl : l.mapM g with
      | error e => rw [hl] at h; cases h
      | ok ys =>
        rw [hl] at h
        cases h
        obtain ⟨h1, h2⟩ := ih hl
        refine ⟨by simp [h1], ?_⟩
        intro i x hx
        cases i with
        | zero => simp at hx; subst hx; exact ⟨y, hg, rfl⟩
        | succ i => simp at hx ⊢; exact h2 i x hx

theorem mapM_range_aux {β γ} (l pre : List β) (g : β → Res γ) :
    (List.range' pre.length l.length).mapM (fun i => do let x ← sliceAt (pre ++ l) i; g x) = l.mapM g := by
  induction l generalizing pre with
  | nil => rfl
  | cons a l ih =>
    rw [List.length_cons, List.range'_succ, List.mapM_cons, List.mapM_cons]
    have h0 : sliceAt (pre ++ a :: l) pre.length = .ok a := by rw [sliceAt_eq_ok]; simp
    have := ih (pre ++ [a])
    rw [List.length_append, List.length_singleton, List.append_assoc, List.singleton_append] at this
    rw [h0, this]
    rfl

theorem mapM_range_get {β γ} (l : List β) (g : β → Res γ) :
    (List.range l.length).mapM (fun i => do let x ← sliceAt l i; g x) = l.mapM g := by
  rw [List.range_eq_range']
  exact mapM_range_aux l [] g

theorem sameShapeLoop_iff {s t : List Nat} (hs : s ≠ []) (hl : s.length = t.length) : sameShapeLoop s t = true ↔ s = t := by
  induction s generalizing t with
  | nil => exact absurd rfl hs
  | cons x xs ih =>
    cases t with
    | nil => simp at hl
    | cons y ys =>
      cases xs with
      | nil =>
        have : ys = [] := by simpa using hl.symm
        subst this
        simp [sameShapeLoop]
      | cons x' xs =>
        rw [sameShapeLoop]
        by_cases h : x = y
        · subst h
          rw [if_neg (by simp), ih (by simp) (by simpa using hl)]
          simp
        · rw [if_pos h]
          simp [h]

/-- Non-empty array values (`EmptyArray` and arrays without elements are treated in `C33_empty`). -/
def NonEmpty (a : Arr α) : Prop := a.WF ∧ a.data ≠ [] ∧ a.shape ≠ []

theorem NonEmpty.prod {a : Arr α} (h : NonEmpty a) : prod a.shape = a.data.length := by
  rw [prod_eq_size h.2.2, ← h.1]

theorem arraysTo_arr (k k' : Kind) {a b : Arr α} (hA : a.data.length ≠ 0) (hB : b.data.length ≠ 0) :
    arraysTo (.arr k a) (.arr k' b) =
      if a.shape.length = b.shape.length ∧ sameShapeLoop a.shape b.shape then some (.arr k a, .arr k' b)
        else if a.data.length = 1 then
          match sliceAt a.data 0 with
          | .ok x => some (.scalar x, .arr k' b)
          | .error _ => none
        else if b.data.length = 1 then
          match sliceAt b.data 0 with
          | .ok y => some (.arr k a, .scalar y)
          | .error _ => none
        else none := by
  unfold arraysTo
  simp only
  rw [if_neg (show ¬ vsize (.arr k a) = 0 from hA), if_neg (show ¬ vsize (.arr k' b) = 0 from hB)]
  rfl

/-- C33: two scalars. -/
theorem C33_scalars (uk : List α → Kind) (f : α → α → Res α) (x y : α) :
    scalarDyadic uk f (.scalar x) (.scalar y) = (do let z ← f x y; return .scalar z) := rfl

/-- C33: two arrays of the same shape: `f` is applied to corresponding elements, in row-major order; the
first failure is the result; otherwise the result has that shape. -/
theorem C33_same_shape (uk : List α → Kind) (f : α → α → Res α) (k k' : Kind) (a b : Arr α)
    (ha : NonEmpty a) (hb : NonEmpty b) (hs : a.shape = b.shape) :
    scalarDyadic uk f (.arr k a) (.arr k' b) = (do
      let d ← (a.data.zip b.data).mapM (fun p => f p.1 p.2)
      return .arr (uk d) ⟨a.shape, d⟩) := by
  have hl : a.data.length = b.data.length := by rw [ha.1, hb.1, hs]
  have hA : a.data.length ≠ 0 := by simpa using ha.2.1
  have hB : b.data.length ≠ 0 := by simpa using hb.2.1
  have hto : arraysTo (.arr k a) (.arr k' b) = some (.arr k a, .arr k' b) := by
    rw [arraysTo_arr k k' hA hB, if_pos ⟨by rw [hs], (sameShapeLoop_iff ha.2.2 (by rw [hs])).2 hs⟩]
  unfold scalarDyadic
  simp only [hto, array2]
  rw [ha.prod, forLoop_mapM]
  congr 1
  have := mapM_range_get (a.data.zip b.data) (fun p => f p.1 p.2)
  rw [← this, List.length_zip, ← hl, Nat.min_self]
  apply mapM_congr'
  intro i hi
  have hi' := List.mem_range.1 hi
  rw [sliceAt_ok hi', sliceAt_ok (by omega : i < b.data.length), sliceAt_ok (by simp; omega : i < (a.data.zip b.data).length)]
  simp [bind, Except.bind]

theorem array2_scalar (uk : List α → Kind) (f : α → α → Res α) (k : Kind) (x : α) (b : Arr α) (hb : NonEmpty b) :
    array2 uk f (.scalar x) (.arr k b) = (do let d ← b.data.mapM (fun y => f x y); return .arr (uk d) ⟨b.shape, d⟩) ∧
    array2 uk f (.arr k b) (.scalar x) = (do let d ← b.data.mapM (fun y => f y x); return .arr (uk d) ⟨b.shape, d⟩) := by
  simp only [array2]
  rw [hb.prod, forLoop_mapM, forLoop_mapM, mapM_range_get, mapM_range_get]
  exact ⟨rfl, rfl⟩

/-- C33: a scalar is extended to the shape of the other side. -/
theorem C33_scalar_extension (uk : List α → Kind) (f : α → α → Res α) (k : Kind) (x : α) (b : Arr α) (hb : NonEmpty b) :
    scalarDyadic uk f (.scalar x) (.arr k b) = (do let d ← b.data.mapM (fun y => f x y); return .arr (uk d) ⟨b.shape, d⟩) ∧
    scalarDyadic uk f (.arr k b) (.scalar x) = (do let d ← b.data.mapM (fun y => f y x); return .arr (uk d) ⟨b.shape, d⟩) :=
  array2_scalar uk f k x b hb

/-- C33: an array with a single element (of any rank) and a different shape is extended like a
scalar. -/
theorem C33_single_extension (uk : List α → Kind) (f : α → α → Res α) (k k' : Kind) (x : α) (s : List Nat) (b : Arr α)
    (hb : NonEmpty b) (hs : s ≠ []) (hne : s ≠ b.shape) :
    scalarDyadic uk f (.arr k ⟨s, [x]⟩) (.arr k' b) = (do let d ← b.data.mapM (fun y => f x y); return .arr (uk d) ⟨b.shape, d⟩) ∧
    (1 < b.data.length →
    scalarDyadic uk f (.arr k' b) (.arr k ⟨s, [x]⟩) = (do let d ← b.data.mapM (fun y => f y x); return .arr (uk d) ⟨b.shape, d⟩)) := by
  have hB : b.data.length ≠ 0 := by simpa using hb.2.1
  constructor
  · have hto : arraysTo (.arr k ⟨s, [x]⟩) (.arr k' b) = some (.scalar x, .arr k' b) := by
      rw [arraysTo_arr k k' (by simp) hB, if_neg, if_pos (by rfl)]
      · rfl
      · rintro ⟨h1, h2⟩
        exact hne ((sameShapeLoop_iff hs h1).1 h2)
    unfold scalarDyadic
    simp only [hto]
    exact (array2_scalar uk f k' x b hb).1
  · intro h1
    have hto : arraysTo (.arr k' b) (.arr k ⟨s, [x]⟩) = some (.arr k' b, .scalar x) := by
      rw [arraysTo_arr k' k hB (by simp), if_neg, if_neg (by omega), if_pos (by rfl)]
      · rfl
      · rintro ⟨h1, h2⟩
        exact hne ((sameShapeLoop_iff hb.2.2 h1).1 h2).symm
    unfold scalarDyadic
    simp only [hto]
    exact (array2_scalar uk f k' x b hb).2

/-- C33: two arrays of different shape, both with more than one element, are rejected without
applying `f`. -/
theorem C33_mismatch (uk : List α → Kind) (f : α → α → Res α) (k k' : Kind) (a b : Arr α)
    (ha : 1 < a.data.length) (hb : 1 < b.data.length) (hA : a.shape ≠ []) (hs : a.shape ≠ b.shape) :
    scalarDyadic uk f (.arr k a) (.arr k' b) = .error .err := by
  have hto : arraysTo (.arr k a) (.arr k' b) = none := by
    rw [arraysTo_arr k k' (by omega) (by omega), if_neg, if_neg (by omega), if_neg (by omega)]
    rintro ⟨h1, h2⟩
    exact hs ((sameShapeLoop_iff hA h1).1 h2)
  unfold scalarDyadic
  simp only [hto]

/-- C33: with an empty side the result is empty (the function is not applied). -/
theorem C33_empty (uk : List α → Kind) (f : α → α → Res α) (v : Val α) :
    scalarDyadic uk f .empty v = .ok .empty ∧ scalarDyadic uk f v .empty = .ok .empty := by
  cases v with
  | scalar x => exact ⟨rfl, rfl⟩
  | empty => exact ⟨rfl, rfl⟩
  | arr k a =>
    constructor
    · rfl
    · unfold scalarDyadic arraysTo
      simp only [vsize]
      by_cases h : a.data.length = 0
      · rw [if_pos h]; rfl
      · rw [if_neg h]; rfl
  | bad d e =>
    constructor
    · rfl
    · unfold scalarDyadic arraysTo
      simp only [vsize]
      by_cases h : e.length = 0
      · rw [if_pos h]; rfl
      · rw [if_neg h]; rfl

/-- C33, element view: if the call on two arrays of the same shape succeeds, the element at every index
is `f` of the two elements there. -/
theorem C33_element (uk : List α → Kind) (f : α → α → Res α) (k k' : Kind) (a b : Arr α)
    (ha : NonEmpty a) (hb : NonEmpty b) (hs : a.shape = b.shape) (v : Val α)
    (h : scalarDyadic uk f (.arr k a) (.arr k' b) = .ok v) :
    ∃ kr r, v = .arr kr r ∧ r.WF ∧ r.shape = a.shape ∧
      ∀ idx x y, a.get? idx = some x → b.get? idx = some y → ∃ z, f x y = .ok z ∧ r.get? idx = some z := by
  rw [C33_same_shape uk f k k' a b ha hb hs] at h
  cases hm : (a.data.zip b.data).mapM (fun p => f p.1 p.2) with
  | error e => rw [hm] at h; cases h
  | ok d =>
    rw [hm] at h
    cases h
    obtain ⟨h1, h2⟩ := mapM_ok_get hm
    have hl : a.data.length = b.data.length := by rw [ha.1, hb.1, hs]
    rw [List.length_zip, ← hl, Nat.min_self] at h1
    refine ⟨_, _, rfl, by show d.length = size a.shape; rw [h1, ha.1], rfl, ?_⟩
    intro idx x y hx hy
    unfold Arr.get? at hx hy ⊢
    split at hx
    · rename_i hin
      rw [← hs, if_pos hin] at hy
      obtain ⟨z, hz, hd⟩ := h2 (flat a.shape idx) (x, y) (by rw [List.getElem?_zip_eq_some]; exact ⟨hx, hy⟩)
      refine ⟨z, hz, ?_⟩
      simp only
      rw [if_pos hin]; exact hd
    · cases hx

/-- the monadic scalar functions: every element is mapped, the shape stays -/
theorem C33_monadic (uk : List α → Kind) (f : α → Res α) (k : Kind) (a : Arr α) (ha : NonEmpty a) (x : α) :
    scalarMonadic uk f (.arr k a) = (do let d ← a.data.mapM f; return .arr (uk d) ⟨a.shape, d⟩) ∧
    scalarMonadic uk f (.scalar x) = (do let v ← f x; return .scalar v) := by
  refine ⟨?_, rfl⟩
  simp only [scalarMonadic]
  rw [ha.prod, forLoop_mapM, mapM_range_get]

example : NonEmpty (⟨[2, 2], [1, 2, 3, 4]⟩ : Arr Int) ∧
    scalarDyadic (α := Int) (fun _ => .int) (fun x y => .ok (x - y)) (.arr .int ⟨[2, 2], [1, 2, 3, 4]⟩) (.arr .int ⟨[2, 2], [4, 4, 1, 1]⟩)
      = .ok (.arr .int ⟨[2, 2], [-3, -2, 2, 3]⟩) ∧
    scalarDyadic (α := Int) (fun _ => .int) (fun x y => .ok (x - y)) (.arr .int ⟨[1, 1, 1], [10]⟩) (.arr .int ⟨[3], [1, 2, 3]⟩)
      = .ok (.arr .int ⟨[3], [9, 8, 7]⟩) ∧
    scalarDyadic (α := Int) (fun _ => .int) (fun x y => .ok (x - y)) (.arr .int ⟨[2], [1, 2]⟩) (.arr .int ⟨[3], [1, 2, 3]⟩)
      = .error .err := by
  refine ⟨⟨by decide, by decide, by decide⟩, by decide, by decide, by decide⟩

end Iv

import Verif.Lemmas.Reshape
/-
C03, C04: reshape, shape, ravel.
-/
namespace Iv

/-- C03 (non-empty source).  For every source array with at least one element and every shape of
non-negative axis lengths, `S⍴A` succeeds with shape `S`, the right number of elements, and its
`k`-th element is element `k mod n` of `A`. -/
theorem C03_reshape_cyclic {α} (zero : α) (uk : List α → Kind) (kd : Kind) (a : Arr α)
    (hne : a.data ≠ []) (S : List Nat) (hS : S ≠ []) :
    ∃ r : Arr α, rho2 zero uk (S.map Int.ofNat) (.arr kd a) = .ok (.arr kd r) ∧
      r.shape = S ∧ r.WF ∧
      ∀ k, k < size S → r.data[k]? = a.data[k % a.data.length]? := by
  obtain ⟨d, h1, h2, h3⟩ := reshapeArr_ok kd a.data hne S hS
  refine ⟨⟨S, d⟩, ?_, rfl, h2, h3⟩
  have hS' : S.map Int.ofNat ≠ [] := by simpa using hS
  simp only [rho2, hS', if_false, toArrayVal]
  exact h1

/-- C03 for a scalar source: every element of `S⍴x` is `x`. -/
theorem C03_reshape_scalar {α} (zero : α) (uk : List α → Kind) (x : α) (S : List Nat) (hS : S ≠ []) :
    rho2 zero uk (S.map Int.ofNat) (.scalar x) =
      .ok (.arr (uk [x]) ⟨S, List.replicate (size S) x⟩) := by
  obtain ⟨d, h1, h2, h3⟩ := reshapeArr_ok (uk [x]) [x] (by simp) S hS
  have hS' : S.map Int.ofNat ≠ [] := by simpa using hS
  simp only [rho2, hS', if_false, toArrayVal]
  rw [h1]
  have : d = List.replicate (size S) x := by
    apply List.ext_getElem?
    intro k
    rcases Nat.lt_or_ge k (size S) with hk | hk
    · rw [h3 k hk]; simp [hk, Nat.mod_one]
    · rw [List.getElem?_eq_none (by omega), List.getElem?_eq_none (by simpa using hk)]
  rw [this]

/-- C03 for the empty numeric array: zeros. -/
theorem C03_reshape_empty {α} (zero : α) (uk : List α → Kind) (S : List Nat) (hS : S ≠ []) :
    rho2 zero uk (S.map Int.ofNat) (.empty : Val α) =
      .ok (.arr .int ⟨S, List.replicate (size S) zero⟩) := by
  have hS' : S.map Int.ofNat ≠ [] := by simpa using hS
  simp only [rho2, hS', if_false, toArrayVal, reshapeEmpty]
  rw [prodI_ofNat hS]
  simp [mkVal_ofNat, -List.map_map]

/-- Reshaping to no axes at all gives the empty array, for every right argument (APL would give the first element as a scalar): `⍴⍬⍴R` is the
vector 0 and not the empty vector. -/
theorem C03_reshape_no_axes {α} (zero : α) (uk : List α → Kind) (R : Val α) :
    rho2 zero uk [] R = .ok .empty ∧ (rho1 <$> rho2 zero uk [] R) = .ok (.arr .int ⟨[1], [0]⟩) := ⟨rfl, rfl⟩

/-- "Reshaping an empty array gives fill / never reads outside the source" is FALSE of the code for
the other representations of an array without elements: reshaping `0⍴"a"` (a string vector
without elements) to length 3 panics, and reshaping `0⍴5` (an integer vector without elements)
to length 3 returns the empty array instead of three zeros. -/
theorem C03_empty_source_counterexamples :
    (∃ v, rho2 "" (fun _ => .str) [0] (.scalar "a") = .ok v ∧
      rho2 "" (fun _ => .str) [3] v = .error .panic) ∧
    (∃ v, rho2 (0 : Int) (fun _ => .int) [0] (.scalar 5) = .ok v ∧
      rho2 (0 : Int) (fun _ => .int) [3] v = .ok .empty) := by
  refine ⟨⟨.arr .str ⟨[0], []⟩, by decide, by decide⟩, ⟨.arr .int ⟨[0], []⟩, by decide, by decide⟩⟩

/-- Two negative axis lengths are accepted and create an array with a negative shape. -/
theorem C03_negative_shape_accepted :
    rho2 (0 : Int) (fun _ => .int) [-1, -2] (.scalar 5) = .ok (.bad [-1, -2] [5, 5]) := by decide

example : rho2 (0 : Int) (fun _ => .int) [2, 3] (.arr .int ⟨[4], [1, 2, 3, 4]⟩) =
    .ok (.arr .int ⟨[2, 3], [1, 2, 3, 4, 1, 2]⟩) := by decide

/-- C04: `⍴S⍴A` is `S`. -/
theorem C04_shape_of_reshape {α} (zero : α) (uk : List α → Kind) (kd : Kind) (a : Arr α)
    (hne : a.data ≠ []) (S : List Nat) (hS : S ≠ []) :
    (rho1 <$> rho2 zero uk (S.map Int.ofNat) (.arr kd a)) =
      .ok (.arr .int ⟨[S.length], S.map Int.ofNat⟩) := by
  obtain ⟨r, h1, h2, _, _⟩ := C03_reshape_cyclic zero uk kd a hne S hS
  rw [h1]
  simp [Functor.map, Except.map, rho1, h2]

/-- C04: `,A` is the vector of the elements of `A` in row-major order. -/
theorem C04_ravel {α} (uk : List α → Kind) (kd : Kind) (a : Arr α) :
    ravel uk (.arr kd a) = .ok (.arr (uk a.data) ⟨[a.data.length], a.data⟩) := by
  have := forLoop_slice a.data
  simp [ravel, toArrayVal, this, bind, Except.bind, pure, Except.pure]

/-- C04: `(⍴A)⍴,A` is `A`: same shape, same elements (the representation may be re-chosen by
unification), for every well-formed non-empty array of rank ≥ 1. -/
theorem C04_reshape_ravel {α} (zero : α) (uk : List α → Kind) (kd : Kind) (a : Arr α)
    (hw : a.WF) (hne : a.data ≠ []) (hs : a.shape ≠ []) :
    (ravel uk (.arr kd a) >>= fun v => rho2 zero uk (a.shape.map Int.ofNat) v) =
      .ok (.arr (uk a.data) a) := by
  rw [C04_ravel]
  obtain ⟨r, h1, h2, h3, h4⟩ := C03_reshape_cyclic zero uk (uk a.data) ⟨[a.data.length], a.data⟩ hne a.shape hs
  simp only [bind, Except.bind]
  rw [h1]
  congr 2
  cases r with
  | mk s d =>
    simp only at h2 h4
    subst h2
    cases a with
    | mk s' d' =>
      simp only [Arr.WF] at *
      congr 1
      apply List.ext_getElem?
      intro k
      rcases Nat.lt_or_ge k (size s') with hk | hk
      · rw [h4 k hk, Nat.mod_eq_of_lt (by omega)]
      · rw [List.getElem?_eq_none (by omega), List.getElem?_eq_none (by omega)]

/-- C04: the shape of a scalar is empty, that of the empty array is one zero. -/
theorem C04_shape_scalar {α} (x : α) : rho1 (.scalar x) = .empty ∧
    rho1 (.empty : Val α) = .arr .int ⟨[1], [0]⟩ := ⟨rfl, rfl⟩

example : (⟨[2, 2], [1, 2, 3, 4]⟩ : Arr Int).WF ∧
    ravel (fun _ => .int) (.arr .int (⟨[2, 2], [1, 2, 3, 4]⟩ : Arr Int)) =
      .ok (.arr .int ⟨[4], [1, 2, 3, 4]⟩) := by decide

end Iv

import Verif.Model.Search
import Verif.Props.Replicate
import Verif.Props.Scalar
import Verif.Props.Tower
/-
C19 interval, index of; C20 membership, where; C21 unique, union, without.
-/
namespace Iv
variable {α : Type}

/-! ### C19 -/

/-- C19: `⍳n` for a positive `n` is the vector of the `n` consecutive integers from the index origin. -/
theorem C19_interval (origin : Int) (n : Nat) (hn : 0 < n) :
    ∃ d, interval origin n = .ok (.arr .int ⟨[n], d⟩) ∧ d.length = n ∧ ∀ i, i < n → d[i]? = some (origin + i) := by
  refine ⟨(List.range n).map (fun (i : Nat) => origin + (i : Int)), ?_, by simp, ?_⟩
  · unfold interval
    rw [if_neg (by omega), if_neg (by omega)]
    simp only [bind, Except.bind, Int.toNat_natCast]
    rw [forLoop_ok (g := fun i => origin + (i : Int)) n (fun _ _ => rfl)]
    rfl
  · intro i hi
    simp [hi]

/-- C19: `⍳0` is the empty array; a negative argument is rejected. -/
theorem C19_interval_zero (origin : Int) : interval origin 0 = .ok .empty := rfl
theorem C19_interval_negative (origin n : Int) (hn : n < 0) : interval origin n = .error .err := by
  unfold interval; rw [if_pos hn]

/-- Specification: `p` is the position of the first item of `v` that `x` equals, or the length of `v`. -/
def FirstMatch (eq : α → α → Bool) (v : List α) (x : α) (p : Nat) : Prop :=
  p ≤ v.length ∧ (∀ y, v[p]? = some y → eq x y = true) ∧ ∀ q, q < p → ∀ y, v[q]? = some y → eq x y = false

theorem firstIndex_spec (eq : α → α → Bool) (x : α) (v : List α) (i : Nat) :
    (match firstIndex eq x v i with
      | some j => i ≤ j ∧ j - i < v.length ∧ FirstMatch eq v x (j - i)
      | none => FirstMatch eq v x v.length) := by
  induction v generalizing i with
  | nil => simp [firstIndex, FirstMatch]
  | cons w vs ih =>
    simp only [firstIndex]
    by_cases h : eq x w = true
    · rw [if_pos h]
      refine ⟨Nat.le_refl _, by simp, by simp, ?_, ?_⟩
      · intro y hy; simp at hy; rw [← hy]; exact h
      · intro q hq; omega
    · rw [if_neg h]
      have h' : eq x w = false := by simpa using h
      have := ih (i + 1)
      cases hf : firstIndex eq x vs (i + 1) with
      | some j =>
        rw [hf] at this
        obtain ⟨h1, h2, h3, h4, h5⟩ := this
        have hj : j - i = (j - (i + 1)) + 1 := by omega
        refine ⟨by omega, by simp; omega, by simp; omega, ?_, ?_⟩
        · intro y hy; rw [hj, List.getElem?_cons_succ] at hy; exact h4 y hy
        · intro q hq y hy
          cases q with
          | zero => simp at hy; rw [← hy]; exact h'
          | succ q => rw [List.getElem?_cons_succ] at hy; exact h5 q (by omega) y hy
      | none =>
        rw [hf] at this
        obtain ⟨h3, h4, h5⟩ := this
        refine ⟨by simp, ?_, ?_⟩
        · intro y hy; simp at hy
        · intro q hq y hy
          cases q with
          | zero => simp at hy; rw [← hy]; exact h'
          | succ q => rw [List.getElem?_cons_succ] at hy; simp at hq; exact h5 q (by omega) y hy

/-- C19: `L⍳R` has the shape of `R`; at each position it is the origin-based position of the first item of
the vector `L` that equals the element of `R`, or the length of `L` plus the origin. -/
theorem C19_indexof (uk : List α → Kind) (eq : α → α → Bool) (origin : Int) (kl kr : Kind) (v : List α) (r : Arr α) :
    ∃ d, indexof uk eq origin (.arr kl ⟨[v.length], v⟩) (.arr kr r) = .ok (.arr .int ⟨r.shape, d⟩) ∧
      d.length = r.data.length ∧
      ∀ (i : Nat) x, r.data[i]? = some x → ∃ p : Nat, d[i]? = some ((p : Int) + origin) ∧ FirstMatch eq v x p := by
  refine ⟨r.data.map (indexIn eq origin v), ?_, by simp, ?_⟩
  · simp only [indexof, toVectorVal, toArrayVal, List.length_singleton, if_true, Val.elems]
    have : forLoop (fun i => do let x ← sliceAt r.data i; return indexIn eq origin v x) r.data.length 0 =
        (.ok (r.data.map (indexIn eq origin v)) : Res _) := by
      cases hd : r.data with
      | nil => rfl
      | cons y ys =>
        rw [forLoop_ok (g := fun k => indexIn eq origin v (((y :: ys)[k]?).getD y)) (y :: ys).length
          (fun k hk => by rw [sliceAt_ok hk, List.getElem?_eq_getElem hk]; rfl)]
        congr 1
        apply List.ext_getElem (by simp)
        intro i h1 h2
        have h3 : i < (y :: ys).length := by simpa using h2
        simp only [List.getElem_map, List.getElem_range, List.getElem?_eq_getElem h3, Option.getD_some]
    rw [this]; rfl
  · intro i x hx
    simp only [List.getElem?_map, hx, Option.map_some, indexIn]
    have := firstIndex_spec eq x v 0
    cases hf : firstIndex eq x v 0 with
    | some j => rw [hf] at this; exact ⟨j, rfl, by simpa using this.2.2⟩
    | none => rw [hf] at this; exact ⟨v.length, rfl, this⟩

/-- C19: a scalar or an array with at most one axis longer than 1 is used as a vector on the left, a scalar
as a one-element vector on the right. -/
theorem C19_left_scalar (uk : List α → Kind) (eq : α → α → Bool) (origin : Int) (x : α) (R : Val α) :
    indexof uk eq origin (.scalar x) R = indexof uk eq origin (.arr .mixed ⟨[1], [x]⟩) R := rfl
theorem C19_right_scalar (uk : List α → Kind) (eq : α → α → Bool) (origin : Int) (L : Val α) (x : α) :
    indexof uk eq origin L (.scalar x) = indexof uk eq origin L (.arr (uk [x]) ⟨[1], [x]⟩) := rfl
theorem C19_left_matrix_rejected (uk : List α → Kind) (eq : α → α → Bool) (origin : Int) (k : Kind) (a : Arr α) (R : Val α)
    (h1 : a.shape.length ≠ 1) (h2 : a.data.length ≠ 0) (h3 : a.shape.foldl max 0 ≠ a.data.length) :
    indexof uk eq origin (.arr k a) R = .error .err := by
  simp [indexof, toVectorVal, h1, h2, h3]

/-- C19: an element that occurs in `V` is found at a position holding an element equal to it. -/
theorem C19_found (eq : α → α → Bool) (v : List α) (x : α) (p : Nat) (hp : FirstMatch eq v x p)
    (hx : ∃ y ∈ v, eq x y = true) : ∃ y, v[p]? = some y ∧ eq x y = true := by
  obtain ⟨y, hy, he⟩ := hx
  obtain ⟨q, hq, hqy⟩ := List.getElem_of_mem hy
  obtain ⟨h1, h2, h3⟩ := hp
  rcases Nat.lt_or_ge p v.length with h | h
  · exact ⟨v[p], List.getElem?_eq_getElem h, h2 _ (List.getElem?_eq_getElem h)⟩
  · have := h3 q (by omega) y (by rw [List.getElem?_eq_getElem hq, hqy])
    rw [he] at this; cases this

/-- C19: the position is unique. -/
theorem C19_unique (eq : α → α → Bool) (v : List α) (x : α) (p q : Nat) (hp : FirstMatch eq v x p)
    (hq : FirstMatch eq v x q) : p = q := by
  have key : ∀ p q, FirstMatch eq v x p → FirstMatch eq v x q → ¬ p < q := by
    intro p q hp hq hlt
    have hpl : p < v.length := Nat.lt_of_lt_of_le hlt hq.1
    have h1 := hp.2.1 _ (List.getElem?_eq_getElem hpl)
    have h2 := hq.2.2 p hlt _ (List.getElem?_eq_getElem hpl)
    rw [h1] at h2; cases h2
  have h1 := key p q hp hq
  have h2 := key q p hq hp
  omega

/-- `isEqual` of two numbers of an exact tower, each of them brought to a common type, is the equality of
their values (numbers for which no common type exists are unequal). -/
theorem C19_isEqual {V Q : Type} [LinearOrder Q] (t : Tower V) (same : TNum V → TNum V → Bool)
    (eqs les : Nat → V → V → Option Bool) (val : TNum V → Q) (ht : ExactTower t eqs les val)
    (hsame : ∀ x y, same x y = true → val x = val y) (x y : TNum V) (hc : ∃ p, t.sameType x y = .ok p) :
    t.isEqual same eqs x y = true ↔ val x = val y := by
  obtain ⟨⟨x', y'⟩, hp⟩ := hc
  obtain ⟨h1, h2, h3, _⟩ := C34_same_class t x y x' y' hp
  unfold Tower.isEqual
  by_cases hs : same x y = true
  · rw [if_pos hs]; exact ⟨fun _ => hsame x y hs, fun _ => rfl⟩
  · rw [if_neg hs, hp, ← h1.val ht, ← h2.val ht]
    cases x' with
    | bool a =>
      cases y' with
      | bool b => simp only [decide_eq_true_iff]; rw [ht.bool, ht.bool, ht.inj]; cases a <;> cases b <;> decide
      | int => simp [cls] at h3
      | num => simp only [cls] at h3; omega
    | int a =>
      cases y' with
      | int b => simp only [decide_eq_true_iff]; exact (ht.inj a b).symm
      | bool => simp [cls] at h3
      | num => simp only [cls] at h3; omega
    | num c v =>
      cases y' with
      | num c' w =>
        have : c = c' := by simp only [cls] at h3; omega
        subst this
        obtain ⟨b, e, hb⟩ := ht.eqs c v w
        simp only [e, Option.getD_some]
        exact hb
      | bool => simp only [cls] at h3; omega
      | int => simp only [cls] at h3; omega

example : indexof (fun _ => .int) (· == ·) 1 (.arr .int ⟨[3], [7, 5, 7]⟩) (.arr .int ⟨[2, 2], [7, 5, 9, 7]⟩) =
    .ok (.arr .int ⟨[2, 2], [1, 2, 4, 1]⟩) := by decide

/-! ### C20 -/

theorem anyLoop_iff (p : α → Bool) (l : List α) : anyLoop p l = true ↔ ∃ r ∈ l, p r = true := by
  induction l with
  | nil => simp [anyLoop]
  | cons r rs ih => simp only [anyLoop]; split <;> simp_all

/-- C20: for an array `L` membership has the shape of `L` and is true exactly where the element occurs
among the elements of `R` (scalar, array or empty). -/
theorem C20_membership (eq : α → α → Bool) (k : Kind) (a : Arr α) (R : Val α) :
    ∃ d, membership eq (.arr k a) R = .arr .bool ⟨a.shape, d⟩ ∧ d.length = a.data.length ∧
      ∀ (i : Nat) x, a.data[i]? = some x → ∃ b, d[i]? = some b ∧ (b = true ↔ ∃ r ∈ R.elems, eq x r = true) := by
  refine ⟨_, rfl, by simp, ?_⟩
  intro i x hx
  refine ⟨anyLoop (fun r => eq x r) R.elems, by simp [hx], anyLoop_iff _ _⟩

/-- C20: for a scalar `L` membership is a scalar boolean. -/
theorem C20_membership_scalar (eq : α → α → Bool) (x : α) (R : Val α) :
    ∃ b, membership eq (.scalar x) R = .scalar b ∧ (b = true ↔ ∃ r ∈ R.elems, eq r x = true) :=
  ⟨_, rfl, anyLoop_iff _ _⟩

theorem whereLoop_mem (origin : Int) (b : List Bool) (i : Nat) (z : Int) :
    z ∈ whereLoop origin b i ↔ ∃ j : Nat, b[j]? = some true ∧ z = (i + j : Nat) + origin := by
  induction b generalizing i with
  | nil => simp [whereLoop]
  | cons v vs ih =>
    have hih := ih (i + 1)
    have hsplit : (∃ j : Nat, (v :: vs)[j]? = some true ∧ z = (i + j : Nat) + origin) ↔
        (v = true ∧ z = (i : Int) + origin) ∨ ∃ j : Nat, vs[j]? = some true ∧ z = (i + 1 + j : Nat) + origin := by
      constructor
      · rintro ⟨j, h1, h2⟩
        cases j with
        | zero => left; simp at h1; exact ⟨h1, by simpa using h2⟩
        | succ j => right; exact ⟨j, by simpa using h1, by rw [h2]; congr 2; omega⟩
      · rintro (⟨h1, h2⟩ | ⟨j, h1, h2⟩)
        · exact ⟨0, by simp [h1], by simpa using h2⟩
        · exact ⟨j + 1, by simpa using h1, by rw [h2]; congr 2; omega⟩
    rw [hsplit, ← hih]
    simp only [whereLoop]
    cases v <;> simp

theorem whereLoop_sorted (origin : Int) (b : List Bool) (i : Nat) : (whereLoop origin b i).Pairwise (· < ·) := by
  induction b generalizing i with
  | nil => exact .nil
  | cons v vs ih =>
    simp only [whereLoop]
    split
    · refine List.Pairwise.cons ?_ (ih _)
      intro z hz
      obtain ⟨j, _, hj⟩ := (whereLoop_mem origin vs (i + 1) z).1 hz
      rw [hj]; omega
    · exact ih _

theorem whereLoop_length (origin : Int) (b : List Bool) (i : Nat) : (whereLoop origin b i).length = (b.filter id).length := by
  induction b generalizing i with
  | nil => rfl
  | cons v vs ih => simp only [whereLoop]; cases v <;> simp [ih]

/-- C20: `⍸B` of a vector of zeros and ones lists the origin-based positions of the ones, increasing. -/
theorem C20_where (origin : Int) (k : Kind) (v : List Int) (hv : v ≠ []) (hb : ∀ n ∈ v, n = 0 ∨ n = 1) :
    ∃ d : List Int, where' origin (.arr k ⟨[v.length], v⟩) = .ok (.arr .int ⟨[d.length], d⟩) ∧ d.Pairwise (· < ·) ∧
      ∀ z, z ∈ d ↔ ∃ i : Nat, v[i]? = some 1 ∧ z = (i : Int) + origin := by
  refine ⟨whereLoop origin (v.map (fun n => decide (n = 1))) 0, ?_, whereLoop_sorted _ _ _, ?_⟩
  · have hlen : v.length ≠ 0 := by simpa using hv
    have hall : v.all (fun n => decide (0 ≤ n ∧ n ≤ 1)) = true := by
      rw [List.all_eq_true]; intro n hn
      rcases hb n hn with h | h <;> subst h <;> decide
    unfold where' toBoolArray
    simp only [hlen, false_and, if_false, hall, if_true, bind, Except.bind]
    unfold whereArr
    simp only [List.length_map, hlen, if_false, List.length_singleton, ne_eq, not_true]
    rw [whereLoop_length]
  · intro z
    rw [whereLoop_mem]
    constructor
    · rintro ⟨j, h1, h2⟩
      refine ⟨j, ?_, by simpa using h2⟩
      simp only [List.getElem?_map, Option.map_eq_some_iff, decide_eq_true_iff] at h1
      obtain ⟨a, h3, h4⟩ := h1
      rw [h3, h4]
    · rintro ⟨j, h1, h2⟩
      exact ⟨j, by simp [h1], by simpa using h2⟩

/-- C20: an array with an element that is neither 0 nor 1 is rejected. -/
theorem C20_where_reject (origin : Int) (k : Kind) (a : Arr Int) (n : Int) (hn : n ∈ a.data) (h0 : n ≠ 0) (h1 : n ≠ 1) :
    where' origin (.arr k a) = .error .err := by
  have hlen : a.data.length ≠ 0 := by
    intro h; rw [List.length_eq_zero_iff] at h; rw [h] at hn; cases hn
  have hall : a.data.all (fun n => decide (0 ≤ n ∧ n ≤ 1)) = false := by
    rw [List.all_eq_false]; exact ⟨n, hn, by simp; omega⟩
  unfold where' toBoolArray
  simp only [hlen, false_and, if_false, hall, bind, Except.bind]
  rfl

/-- C20: a scalar is used as a one-element vector; anything but 0 and 1 is rejected. -/
theorem C20_where_scalar (origin n : Int) :
    where' origin (.scalar n) = if n = 0 then .ok (.arr .int ⟨[0], []⟩) else if n = 1 then .ok (.arr .int ⟨[1], [0 + origin]⟩)
      else .error .err := by
  by_cases h0 : n = 0
  · subst h0; rfl
  · by_cases h1 : n = 1
    · subst h1; simp [where', toBoolArray, bind, Except.bind, whereArr, whereLoop]
    · rw [if_neg h0, if_neg h1]
      have : ¬ (0 ≤ n ∧ n ≤ 1) := by omega
      simp [where', toBoolArray, bind, Except.bind, this]

example : where' 1 (.arr .int ⟨[5], [0, 1, 1, 0, 1]⟩) = .ok (.arr .int ⟨[3], [2, 3, 5]⟩) := by decide

/-! ### C21 -/

/-- `x` equals some item of the list. -/
def occurs (eq : α → α → Bool) (l : List α) (x : α) : Bool := l.any (fun y => eq x y)

theorem occurs_iff (eq : α → α → Bool) (l : List α) (x : α) : occurs eq l x = true ↔ ∃ y ∈ l, eq x y = true := by
  simp [occurs]

/-- Specification: the elements of a list that equal no earlier element, in order. -/
def firsts (eq : α → α → Bool) (v : List α) : List α :=
  v.zipIdx.filterMap (fun p => if occurs eq (v.take p.2) p.1 then none else some p.1)

/-- No later element equals an earlier one. -/
def NoDup (eq : α → α → Bool) (v : List α) : Prop := v.Pairwise (fun x y => eq y x = false)

theorem appendUnique_nodup (eq : α → α → Bool) (vs values : List α) (h : NoDup eq values) : NoDup eq (appendUnique eq values vs) := by
  induction vs generalizing values with
  | nil => exact h
  | cons v vs ih =>
    simp only [appendUnique]
    split
    · exact ih _ h
    · rename_i hv
      apply ih
      unfold NoDup
      rw [List.pairwise_append]
      refine ⟨h, List.pairwise_singleton _ _, ?_⟩
      intro x hx y hy
      simp at hy; subst hy
      rw [anyLoop_iff] at hv
      cases he : eq y x with
      | false => rfl
      | true => exact absurd ⟨x, hx, he⟩ hv

theorem appendUnique_id (eq : α → α → Bool) (vs values : List α) (h : NoDup eq (values ++ vs)) :
    appendUnique eq values vs = values ++ vs := by
  induction vs generalizing values with
  | nil => simp [appendUnique]
  | cons v vs ih =>
    simp only [appendUnique]
    have hn : ¬ anyLoop (fun w => eq v w) values = true := by
      rw [anyLoop_iff]
      rintro ⟨w, hw, he⟩
      unfold NoDup at h
      rw [List.pairwise_append] at h
      have := h.2.2 w hw v (by simp)
      rw [he] at this; cases this
    rw [if_neg hn, ih]
    · simp
    · simpa using h

theorem appendUnique_sub (eq : α → α → Bool) (vs values : List α) :
    ∃ w, appendUnique eq values vs = values ++ w ∧ w.Sublist vs := by
  induction vs generalizing values with
  | nil => exact ⟨[], by simp [appendUnique], .slnil⟩
  | cons v vs ih =>
    simp only [appendUnique]
    split
    · obtain ⟨w, h1, h2⟩ := ih values
      exact ⟨w, h1, h2.cons v⟩
    · obtain ⟨w, h1, h2⟩ := ih (values ++ [v])
      exact ⟨v :: w, by rw [h1]; simp, h2.cons_cons v⟩

/-- transitivity in the form needed here, true for equality of values -/
def Eucl (eq : α → α → Bool) : Prop :=
  (∀ x, eq x x = true) ∧ ∀ x y z, eq x y = true → eq y z = true → eq x z = true

theorem appendUnique_firsts (eq : α → α → Bool) (he : Eucl eq) (vs pre values : List α)
    (hcov : ∀ x, (∃ y ∈ pre, eq x y = true) ↔ ∃ y ∈ values, eq x y = true) :
    appendUnique eq values vs = values ++ (vs.zipIdx pre.length).filterMap
      (fun p => if occurs eq ((pre ++ vs).take p.2) p.1 then none else some p.1) := by
  induction vs generalizing pre values with
  | nil => simp [appendUnique]
  | cons v vs ih =>
    simp only [appendUnique, List.zipIdx_cons, List.filterMap_cons]
    have hih := fun values' hc => ih (pre ++ [v]) values' hc
    simp only [List.length_append, List.length_singleton, List.append_assoc, List.singleton_append] at hih
    have htake : (pre ++ v :: vs).take pre.length = pre := by simp
    rw [htake]
    by_cases hv : ∃ y ∈ pre, eq v y = true
    · rw [if_pos ((occurs_iff eq pre v).2 hv)]
      have hv' := (hcov v).1 hv
      rw [if_pos ((anyLoop_iff _ _).2 hv')]
      simp only
      apply hih
      intro x
      constructor
      · rintro ⟨y, hy, hxy⟩
        simp at hy
        rcases hy with hy | rfl
        · exact (hcov x).1 ⟨y, hy, hxy⟩
        · obtain ⟨z, hz, hvz⟩ := hv'
          exact ⟨z, hz, he.2 _ _ _ hxy hvz⟩
      · intro h
        obtain ⟨y, hy, hxy⟩ := (hcov x).2 h
        exact ⟨y, by simp [hy], hxy⟩
    · rw [if_neg (fun h => hv ((occurs_iff eq pre v).1 h))]
      have hv' : ¬ anyLoop (fun w => eq v w) values = true := by
        rw [anyLoop_iff]; exact fun h => hv ((hcov v).2 h)
      rw [if_neg hv', hih]
      · simp
      · intro x
        constructor
        · rintro ⟨y, hy, hxy⟩
          simp at hy
          rcases hy with hy | rfl
          · obtain ⟨z, hz, h⟩ := (hcov x).1 ⟨y, hy, hxy⟩
            exact ⟨z, by simp [hz], h⟩
          · exact ⟨y, by simp, hxy⟩
        · rintro ⟨y, hy, hxy⟩
          simp at hy
          rcases hy with hy | rfl
          · obtain ⟨z, hz, h⟩ := (hcov x).2 ⟨y, hy, hxy⟩
            exact ⟨z, by simp [hz], h⟩
          · exact ⟨y, by simp, hxy⟩

theorem appendUnique_nil (eq : α → α → Bool) (he : Eucl eq) (v : List α) : appendUnique eq [] v = firsts eq v := by
  have := appendUnique_firsts eq he v [] [] (by simp)
  simpa [firsts] using this

/-- C21: `∪V` is the vector of the elements of `V` that equal no earlier element, in order. -/
theorem C21_unique (uk : List α → Kind) (eq : α → α → Bool) (he : Eucl eq) (k : Kind) (v : List α) :
    unique uk eq (.arr k ⟨[v.length], v⟩) = .ok (.arr (uk (firsts eq v)) ⟨[(firsts eq v).length], firsts eq v⟩) := by
  simp [unique, toVectorVal, Val.elems, appendUnique_nil eq he]

/-- C21: for any comparison at all, the result of unique has no duplicates and is a selection of elements in
their order, and unique of it gives it back. -/
theorem C21_unique_nodup (uk : List α → Kind) (eq : α → α → Bool) (k : Kind) (v : List α) :
    ∃ k' w, unique uk eq (.arr k ⟨[v.length], v⟩) = .ok (.arr k' ⟨[w.length], w⟩) ∧ NoDup eq w ∧ w.Sublist v ∧
      unique uk eq (.arr k' ⟨[w.length], w⟩) = .ok (.arr k' ⟨[w.length], w⟩) := by
  refine ⟨uk (appendUnique eq [] v), appendUnique eq [] v, by simp [unique, toVectorVal, Val.elems], ?_, ?_, ?_⟩
  · exact appendUnique_nodup eq v [] .nil
  · obtain ⟨w, h1, h2⟩ := appendUnique_sub eq v []
    rw [h1]; simpa using h2
  · have := appendUnique_id eq (appendUnique eq [] v) [] (by simpa using appendUnique_nodup eq v [] .nil)
    simp only [List.nil_append] at this
    simp only [unique, toVectorVal, Val.elems, List.length_singleton, if_true]
    rw [this]

/-- C21: every element of `V` equals an element of `∪V`. -/
theorem C21_unique_complete (eq : α → α → Bool) (he : Eucl eq) (v : List α) (x : α) (hx : x ∈ v) :
    ∃ y ∈ firsts eq v, eq x y = true := by
  rw [← appendUnique_nil eq he]
  have key : ∀ (vs values : List α), ∀ x, (x ∈ vs ∨ ∃ y ∈ values, eq x y = true) → ∃ y ∈ appendUnique eq values vs, eq x y = true := by
    intro vs
    induction vs with
    | nil => intro values x h; rcases h with h | h; cases h; exact h
    | cons v vs ih =>
      intro values x h
      simp only [appendUnique]
      apply ih
      rcases h with h | ⟨y, hy, hxy⟩
      · rcases List.mem_cons.1 h with rfl | h
        · right
          split
          · rename_i hv; exact (anyLoop_iff _ _).1 hv
          · exact ⟨x, by simp, he.1 x⟩
        · left; exact h
      · right
        split
        · exact ⟨y, hy, hxy⟩
        · exact ⟨y, by simp [hy], hxy⟩
  exact key v [] x (Or.inl hx)

theorem appendUnique_append (eq : α → α → Bool) (u w values : List α) :
    appendUnique eq (appendUnique eq values u) w = appendUnique eq values (u ++ w) := by
  induction u generalizing values with
  | nil => rfl
  | cons x u ih => simp only [appendUnique, List.cons_append, ih]

/-- C21: the union of two vectors is the unique elements of `L` followed by the unique elements of those
of `R` that equal none of `L`. -/
theorem C21_union (uk : List α → Kind) (eq : α → α → Bool) (he : Eucl eq) (k k' : Kind) (l r : List α) :
    let u := firsts eq l ++ firsts eq (r.filter (fun x => !occurs eq l x))
    union uk eq (.arr k ⟨[l.length], l⟩) (.arr k' ⟨[r.length], r⟩) = .ok (.arr (uk u) ⟨[u.length], u⟩) := by
  intro u
  have key : ∀ (vs values : List α), (∀ x ∈ values, occurs eq l x = false) →
      appendUnique eq (firsts eq l ++ values) vs = firsts eq l ++ (appendUnique eq values (vs.filter (fun x => !occurs eq l x))) := by
    intro vs
    induction vs with
    | nil => intro values _; simp [appendUnique]
    | cons v vs ih =>
      intro values hval
      simp only [appendUnique, List.filter_cons]
      cases hv : occurs eq l v with
      | true =>
        have h1 : anyLoop (fun w => eq v w) (firsts eq l ++ values) = true := by
          rw [anyLoop_iff]
          obtain ⟨y, hy, hvy⟩ := (occurs_iff eq l v).1 hv
          obtain ⟨z, hz, hyz⟩ := C21_unique_complete eq he l y hy
          exact ⟨z, by simp [hz], he.2 _ _ _ hvy hyz⟩
        rw [if_pos h1, ih values hval]
        simp
      | false =>
        have hn : ¬ ∃ y ∈ l, eq v y = true := by rw [← occurs_iff, hv]; simp
        have hf : ∀ y ∈ firsts eq l, y ∈ l := by
          intro y hy
          rw [← appendUnique_nil eq he] at hy
          obtain ⟨w, h1, h2⟩ := appendUnique_sub eq l []
          rw [h1] at hy
          exact h2.subset (by simpa using hy)
        have h1 : (anyLoop (fun w => eq v w) (firsts eq l ++ values) = true) ↔ anyLoop (fun w => eq v w) values = true := by
          rw [anyLoop_iff, anyLoop_iff]
          constructor
          · rintro ⟨y, hy, hvy⟩
            rcases List.mem_append.1 hy with hy | hy
            · exact absurd ⟨y, hf y hy, hvy⟩ hn
            · exact ⟨y, hy, hvy⟩
          · rintro ⟨y, hy, hvy⟩; exact ⟨y, by simp [hy], hvy⟩
        simp only [Bool.not_false, if_true, appendUnique]
        by_cases h2 : anyLoop (fun w => eq v w) values = true
        · rw [if_pos (h1.2 h2), if_pos h2, ih values hval]
        · rw [if_neg (fun h => h2 (h1.1 h)), if_neg h2, List.append_assoc, ih]
          intro x hx
          rcases List.mem_append.1 hx with hx | hx
          · exact hval x hx
          · simp at hx; subst hx; exact hv
  have hu : appendUnique eq (appendUnique eq [] l) r = u := by
    rw [appendUnique_nil eq he]
    have := key r [] (by simp)
    rw [List.append_nil] at this
    rw [this, appendUnique_nil eq he]
  simp only [union, toVectorVal, List.length_singleton, if_true, Val.elems, hu]

/-- C21: the union with the empty array is the other vector, unchanged (duplicates stay). -/
theorem C21_union_empty (uk : List α → Kind) (eq : α → α → Bool) (k : Kind) (v : List α) :
    union uk eq .empty (.arr k ⟨[v.length], v⟩) = .ok (.arr k ⟨[v.length], v⟩) ∧
    union uk eq (.arr k ⟨[v.length], v⟩) .empty = .ok (.arr k ⟨[v.length], v⟩) := by
  constructor <;> rfl

theorem replicate_axis0 (zero : α) (L : List Int) (v : List α) :
    replicateArr zero L ⟨[v.length], v⟩ 0 = replicateArr zero L ⟨[v.length], v⟩ (-1) := rfl

theorem replSpec_filter (zero : α) (p : α → Bool) (v : List α) :
    replSpec zero (v.map (fun x => bool2int (p x))) v = v.filter p := by
  induction v with
  | nil => rfl
  | cons x xs ih =>
    simp only [List.map_cons, replSpec, ih, List.filter_cons]
    cases p x <;> simp [bool2int]

/-- C21: `L~R` keeps, in order, exactly the elements of the vector `L` that equal no element of `R`. -/
theorem C21_without (uk : List α → Kind) (zero : α) (eq : α → α → Bool) (k : Kind) (l : List α) (hl : l ≠ []) (R r : Val α)
    (hR : toVectorVal uk R = some r) :
    let w := l.filter (fun x => !occurs eq R.elems x)
    without uk zero eq (.arr k ⟨[l.length], l⟩) R = .ok (.arr k ⟨[w.length], w⟩) := by
  intro w
  have hlen : l.length ≠ 0 := by simpa using hl
  have hre : r.elems = R.elems := by
    cases R with
    | scalar x => simp [toVectorVal] at hR; subst hR; rfl
    | empty => simp [toVectorVal] at hR; subst hR; rfl
    | bad => simp [toVectorVal] at hR
    | arr k a =>
      simp only [toVectorVal] at hR
      split at hR
      · cases hR; rfl
      · split at hR
        · rename_i h; cases hR; simp [Val.elems, List.length_eq_zero_iff.1 h]
        · split at hR
          · cases hR; rfl
          · cases hR
  have hany : ∀ x, anyLoop (fun r => eq x r) R.elems = occurs eq R.elems x := by
    intro x; rw [Bool.eq_iff_iff, anyLoop_iff, occurs_iff]
  unfold without
  rw [hR]
  simp only [toVectorVal, List.length_singleton, if_true]
  have hmain : replicateVal uk zero ((l.map (fun x => anyLoop (fun r => eq x r) r.elems)).map (fun x => bool2int (!x))) (.arr k ⟨[l.length], l⟩) 0
      = .ok (.arr k ⟨[w.length], w⟩) := by
    simp only [replicateVal, toArrayVal]
    rw [replicate_axis0, C14_vector _ _ _ (by simp), List.map_map, hre]
    have : ((fun x => bool2int (!x)) ∘ fun x => anyLoop (fun r => eq x r) R.elems) = fun x => bool2int (!occurs eq R.elems x) := by
      funext x; simp [hany]
    rw [this, replSpec_filter zero (fun x => !occurs eq R.elems x)]
    rfl
  cases r with
  | empty =>
    simp only [Except.ok.injEq, Val.arr.injEq, Arr.mk.injEq, List.cons.injEq, and_true, true_and]
    have : w = l := by
      show List.filter _ l = l
      rw [List.filter_eq_self]
      intro x _
      rw [← hre]; simp [Val.elems, occurs]
    rw [this]; exact ⟨rfl, rfl⟩
  | scalar x => simp only [membership, List.length_map, hlen, if_false]; exact hmain
  | arr k' b => simp only [membership, List.length_map, hlen, if_false]; exact hmain
  | bad x y => simp only [membership, List.length_map, hlen, if_false]; exact hmain

/-- C21: nothing is removed from, or kept of, an empty left argument. -/
theorem C21_without_empty (uk : List α → Kind) (zero : α) (eq : α → α → Bool) (k : Kind) (v : List α) :
    without uk zero eq .empty (.arr k ⟨[v.length], v⟩) = .ok .empty := rfl

example : unique (fun _ => .int) (· == ·) (.arr .int ⟨[5], [3, 1, 3, 2, 1]⟩) = .ok (.arr .int ⟨[3], [3, 1, 2]⟩) := by decide
example : union (fun _ => .int) (· == ·) (.arr .int ⟨[3], [3, 1, 3]⟩) (.arr .int ⟨[4], [2, 1, 5, 2]⟩) =
    .ok (.arr .int ⟨[4], [3, 1, 2, 5]⟩) := by decide
example : without (fun _ => .int) 0 (· == ·) (.arr .int ⟨[5], [3, 1, 3, 2, 1]⟩) (.arr .int ⟨[2], [1, 9]⟩) =
    .ok (.arr .int ⟨[3], [3, 3, 2]⟩) := by decide
/-- equality of integers meets the hypothesis on `eq` -/
example : Eucl (fun x y : Int => x == y) := by
  constructor
  · simp
  · intro x y z h1 h2; simp at *; omega

end Iv

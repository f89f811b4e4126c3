import Verif.Props.Domino
import Verif.Props.Rank
/-
C62: overdetermined systems.
-/
namespace Iv
open Finset
variable {K F : Type} [Field F] [LinearOrder F] [IsStrictOrderedRing F]
variable {o : MatOps K} {val : K → F}

theorem ifold_sum (ho : ExactNum o val) (ps : List (K × K)) (hne : ps ≠ []) :
    ∃ v, ifold (liftOp o.add) (liftOp o.mul) ps = pure v ∧ val v = (ps.map fun p => val p.1 * val p.2).sum := by
  induction ps with
  | nil => exact absurd rfl hne
  | cons p ps ih =>
    obtain ⟨u, e1, e2⟩ := ho.mul p.1 p.2
    have eu : liftOp o.mul p.1 p.2 = pure u := by rw [liftOp, e1]; rfl
    cases ps with
    | nil => exact ⟨u, by rw [ifold, eu], by simp [e2]⟩
    | cons q ps =>
      obtain ⟨v, e3, e4⟩ := ih (by simp)
      obtain ⟨w, e5, e6⟩ := ho.add u v
      refine ⟨w, ?_, ?_⟩
      · rw [ifold, e3, pure_bind, eu, pure_bind, liftOp, e5]; rfl
      · rw [e6, e2, e4]; simp

omit [Field F] [LinearOrder F] [IsStrictOrderedRing F] in
theorem range_filterMap {β : Type} (n : Nat) (g : Nat → Option β) (f : Nat → β) (h : ∀ k, k < n → g k = some (f k)) :
    (List.range n).filterMap g = (List.range n).map f := by
  rw [← List.filterMap_eq_map]
  exact List.filterMap_congr fun k hk => by rw [h k (List.mem_range.1 hk)]; rfl

omit [LinearOrder F] [IsStrictOrderedRing F] in
theorem IsMat.elem {a : Arr K} {r c : Nat} {M : Nat → Nat → F} (h : IsMat val a r c M) (z : K) :
    ∃ f : Nat → Nat → K, ∀ i j, i < r → j < c → a.get? [i, j] = some (f i j) ∧ val (f i j) = M i j := by
  refine ⟨fun i j => a.data.getD (i * c + j) z, ?_⟩
  intro i j hi hj
  obtain ⟨x, e1, e2⟩ := h.2.2 i j hi hj
  have : a.data.getD (i * c + j) z = x := by rw [List.getD_eq_getElem?_getD, e1]; rfl
  show a.get? [i, j] = some (a.data.getD (i * c + j) z) ∧ val (a.data.getD (i * c + j) z) = M i j
  rw [this, mat_get a r c h.1 i j hi hj]
  exact ⟨e1, e2⟩

omit [LinearOrder F] [IsStrictOrderedRing F] in
theorem IsMat.wf {a : Arr K} {r c : Nat} {M : Nat → Nat → F} (h : IsMat val a r c M) : a.WF := by
  unfold Arr.WF; rw [h.2.1, h.1]; simp [size]

/-- the inner product +.× of two matrices -/
theorem mmul_spec (ho : ExactNum o val) (uk : List K → Kind) (k k' : Kind) (a b : Arr K) (p r q : Nat) (A B : Nat → Nat → F) (hr : r ≠ 0)
    (ha : IsMat val a p r A) (hb : IsMat val b r q B) :
    ∃ kr x, (inner (m := Id) uk (liftOp o.add) (liftOp o.mul) (.arr k a) (.arr k' b)).run = .ok (.arr kr x) ∧
      IsMat val x p q (fun i j => ∑ l ∈ range r, A i l * B l j) := by
  obtain ⟨fa, hfa⟩ := ha.elem o.zero
  obtain ⟨fb, hfb⟩ := hb.elem o.zero
  rw [C28_inner uk (liftOp o.add) (liftOp o.mul) k k' a b ha.wf hb.wf [p] [q] r ha.1 hb.1 (by simp)]
  obtain ⟨d, e, hl, hd⟩ := mapM_pure_ex (M := ExceptT Fail Id) (l := allIdx ([p] ++ [q]))
    (g := fun idx => ifold (liftOp o.add) (liftOp o.mul) ((a.line [p].length (idx.take [p].length)).zip (b.line 0 (idx.drop [p].length))))
    (P := fun idx v => ∀ i j, idx = [i, j] → val v = ∑ l ∈ range r, A i l * B l j)
    (by
      intro idx hidx
      obtain ⟨i, j, rfl, hi, hj⟩ : ∃ i j, idx = [i, j] ∧ i < p ∧ j < q := by
        have := mem_allIdx.1 hidx
        match idx, this with
        | [i, j], h => exact ⟨i, j, rfl, h.1, h.2.1⟩
        | [], h => exact h.elim
        | [_], h => exact h.2.elim
        | _ :: _ :: _ :: _, h => exact h.2.2.elim
      have l1 : a.line 1 [i] = (List.range r).map (fun l => fa i l) := by
        unfold Arr.line
        rw [ha.1]
        exact range_filterMap r _ _ fun l hl => (hfa i l hi hl).1
      have l2 : b.line 0 [j] = (List.range r).map (fun l => fb l j) := by
        unfold Arr.line
        rw [hb.1]
        exact range_filterMap r _ _ fun l hl => (hfb l j hl hj).1
      have hz : (a.line [p].length ([i, j].take [p].length)).zip (b.line 0 ([i, j].drop [p].length)) = (List.range r).map fun l => (fa i l, fb l j) := by
        show (a.line 1 [i]).zip (b.line 0 [j]) = _
        rw [l1, l2, List.zip_map']
      simp only [hz]
      obtain ⟨v, e1, e2⟩ := ifold_sum ho ((List.range r).map fun l => (fa i l, fb l j)) (by simp [hr])
      refine ⟨v, e1, ?_⟩
      rintro i' j' h
      cases h
      rw [e2, List.map_map]
      have : ∀ n, n ≤ r → ((List.range n).map ((fun p : K × K => val p.1 * val p.2) ∘ fun l => (fa i l, fb l j))).sum = ∑ l ∈ range n, A i l * B l j := by
        intro n
        induction n with
        | zero => intro _; rfl
        | succ n ih =>
          intro hn
          rw [List.range_succ, List.map_append, List.sum_append, ih (by omega), sum_range_succ]
          simp only [List.map_cons, List.map_nil, List.sum_cons, List.sum_nil, add_zero, Function.comp_apply]
          rw [(hfa i n hi (by omega)).2, (hfb n j (by omega) hj).2]
      exact this r (Nat.le_refl _))
  rw [e, pure_bind]
  refine ⟨uk d, ⟨[p, q], d⟩, rfl, rfl, ?_, ?_⟩
  · show d.length = p * q
    rw [hl, allIdx_length]; simp [size]
  · intro i j hi hj
    obtain ⟨v, e1, _, e2⟩ := hd (i * q + j) [i, j] (by
      have := allIdx_getElem? (s := [p, q]) (idx := [i, j]) ⟨hi, hj, trivial⟩
      simpa [flat, size] using this)
    exact ⟨v, e1, e2 i j rfl⟩

theorem normalEq_spec (ho : ExactNum o val) (origin : Int) (horg : origin = 0 ∨ origin = 1) (uk : List K → Kind) (al ar : Arr K) (r c d : Nat) (A B : Nat → Nat → F)
    (hr : r ≠ 0) (ha : IsMat val ar r c A) (hb : IsMat val al r d B) :
    ∃ al' ar', o.normalEq origin uk al ar = .ok (al', ar') ∧ IsMat val ar' c c (fun i j => ∑ l ∈ range r, A l i * A l j) ∧
      IsMat val al' c d (fun i j => ∑ l ∈ range r, A l i * B l j) := by
  -- the conjugate
  obtain ⟨h, e1, hh⟩ : ∃ h, scalarMonadic uk o.conj (.arr (uk []) ar) = .ok (.arr (uk h.data) h) ∧ IsMat val h r c A := by
    obtain ⟨dd, e, hl, hd⟩ := mapM_pure_ex (M := Except Fail) (l := ar.data) (g := o.conj) (P := fun x y => val y = val x)
      (fun x _ => ho.conj x)
    refine ⟨⟨[r, c], dd⟩, ?_, rfl, by rw [hl]; exact ha.2.1, ?_⟩
    · have hp : prod ar.shape = ar.data.length := by rw [ha.1, ha.2.1]; rfl
      simp only [scalarMonadic]
      rw [hp, forLoop_mapM, mapM_range_get, e, ha.1]; rfl
    · intro i j hi hj
      obtain ⟨x, f1, f2⟩ := ha.2.2 i j hi hj
      obtain ⟨y, g1, _, g2⟩ := hd _ x f1
      exact ⟨y, g1, by rw [g2, f2]⟩
  -- its transpose
  obtain ⟨t, e2, ht⟩ : ∃ t, transpose origin none (.arr (uk h.data) h) = .ok (.arr (uk h.data) t) ∧ IsMat val t c r (fun i j => A j i) := by
    obtain ⟨t, e, hw, hs, hg⟩ := C10_transpose origin horg (uk h.data) h hh.wf (by rw [hh.1]; simp)
    have hs' : t.shape = [c, r] := by rw [hs, hh.1]; rfl
    refine ⟨t, e, hs', by unfold Arr.WF at hw; rw [hw, hs']; simp [size], ?_⟩
    intro i j hi hj
    have hin : InB t.shape [i, j] := by rw [hs']; exact ⟨hi, hj, trivial⟩
    have := (hg [i, j] hin).2
    rw [mat_get t c r hs' i j hi hj] at this
    obtain ⟨x, f1, f2⟩ := hh.2.2 j i hj hi
    refine ⟨x, ?_, f2⟩
    rw [this]
    show h.get? [j, i] = _
    rw [mat_get h r c hh.1 j i hj hi, f1]
  obtain ⟨k1, x1, e3, h3⟩ := mmul_spec ho uk (uk h.data) (uk []) t ar c r c _ _ hr ht ha
  obtain ⟨k2, x2, e4, h4⟩ := mmul_spec ho uk (uk h.data) (uk []) t al c r d _ _ hr ht hb
  refine ⟨x2, x1, ?_, h3, h4⟩
  simp only [MatOps.normalEq, e1, e2, bind, Except.bind]
  have e3' : (inner (m := Id) uk (liftOp o.add) (liftOp o.mul) (.arr (uk h.data) t) (.arr (uk []) ar)).run = Except.ok (.arr k1 x1) := e3
  have e4' : (inner (m := Id) uk (liftOp o.add) (liftOp o.mul) (.arr (uk h.data) t) (.arr (uk []) al)).run = Except.ok (.arr k2 x2) := e4
  rw [e3', e4']
  rfl

omit [LinearOrder F] [IsStrictOrderedRing F] in
theorem isMat_congr {a : Arr K} {r c : Nat} {M N : Nat → Nat → F} (h : IsMat val a r c M) (e : ∀ i j, i < r → j < c → M i j = N i j) : IsMat val a r c N :=
  ⟨h.1, h.2.1, fun i j hi hj => by obtain ⟨x, h1, h2⟩ := h.2.2 i j hi hj; exact ⟨x, h1, h2.trans (e i j hi hj)⟩⟩

omit [LinearOrder F] [IsStrictOrderedRing F] in
theorem isMat_trans_mul {a : Arr K} {r c d : Nat} {A : Matrix (Fin r) (Fin c) F} {B : Matrix (Fin r) (Fin d) F}
    (h : IsMat val a c d (fun i j => ∑ l ∈ range r, extM A l i * extM B l j)) : IsMatrix val a (A.transpose * B) := by
  rw [isMatrix_iff]
  refine isMat_congr h fun i j hi hj => ?_
  unfold extM
  rw [dif_pos ⟨hi, hj⟩, Matrix.mul_apply, Finset.sum_range]
  refine sum_congr rfl fun l _ => ?_
  rw [dif_pos ⟨l.2, hi⟩, dif_pos ⟨l.2, hj⟩]; rfl

/-- the sum of the squares of a column -/
def sqNorm {r d : Nat} (E : Matrix (Fin r) (Fin d) F) (j : Fin d) : F := ∑ i, E i j * E i j

/-- Solutions of the normal equations minimize the sum of squares. -/
theorem normal_min {r c d : Nat} (A : Matrix (Fin r) (Fin c) F) (B : Matrix (Fin r) (Fin d) F) (X Y : Matrix (Fin c) (Fin d) F)
    (h : A.transpose * A * X = A.transpose * B) (j : Fin d) : sqNorm (A * X - B) j ≤ sqNorm (A * Y - B) j := by
  have horth : A.transpose * (A * X - B) = 0 := by rw [Matrix.mul_sub, ← Matrix.mul_assoc, h, sub_self]
  have hcross : ∑ i, (A * (Y - X)) i j * (A * X - B) i j = 0 := by
    have : ∑ i, (A * (Y - X)) i j * (A * X - B) i j = ∑ k, (Y - X) k j * (A.transpose * (A * X - B)) k j := by
      simp only [Matrix.mul_apply (M := A) (N := Y - X), Matrix.mul_apply (M := A.transpose), Matrix.transpose_apply, sum_mul, mul_sum]
      rw [sum_comm]
      refine sum_congr rfl fun k _ => sum_congr rfl fun i _ => by ring
    rw [this, horth]; simp
  have hsplit : sqNorm (A * Y - B) j = sqNorm (A * X - B) j + ∑ i, (A * (Y - X)) i j * (A * (Y - X)) i j := by
    have hY : A * Y - B = (A * X - B) + A * (Y - X) := by rw [Matrix.mul_sub]; abel
    unfold sqNorm
    rw [hY]
    have : ∀ i, ((A * X - B) + A * (Y - X)) i j * ((A * X - B) + A * (Y - X)) i j =
        (A * X - B) i j * (A * X - B) i j + (A * (Y - X)) i j * (A * (Y - X)) i j + 2 * ((A * (Y - X)) i j * (A * X - B) i j) := by
      intro i; rw [Matrix.add_apply]; ring
    simp only [this, sum_add_distrib, ← mul_sum, hcross]
    ring
  rw [hsplit]
  have : 0 ≤ ∑ i, (A * (Y - X)) i j * (A * (Y - X)) i j := sum_nonneg fun i _ => mul_self_nonneg _
  linarith

/-- The columns of a matrix are linearly dependent exactly if the matrix of the normal equations is singular. -/
theorem dependent_det {r c : Nat} (A : Matrix (Fin r) (Fin c) F) : (A.transpose * A).det = 0 ↔ ∃ v ≠ 0, A.mulVec v = 0 := by
  rw [← Matrix.exists_mulVec_eq_zero_iff]
  constructor
  · rintro ⟨v, hv, h⟩
    refine ⟨v, hv, ?_⟩
    have h0 : ∑ i, A.mulVec v i * A.mulVec v i = 0 := by
      have : ∑ i, A.mulVec v i * A.mulVec v i = dotProduct v ((A.transpose * A).mulVec v) := by
        rw [← Matrix.mulVec_mulVec, Matrix.dotProduct_mulVec, Matrix.vecMul_transpose]; rfl
      rw [this, h]; simp
    rw [sum_eq_zero_iff_of_nonneg (fun i _ => mul_self_nonneg _)] at h0
    funext i
    exact mul_self_eq_zero.1 (h0 i (mem_univ _))
  · rintro ⟨v, hv, h⟩
    exact ⟨v, hv, by rw [← Matrix.mulVec_mulVec, h]; simp⟩

/-- C62: B⌹A for a matrix A with more rows than columns: if the columns of A are linearly independent, the result is the least squares solution
of A+.×X = B (every column of the residual has the least possible sum of squares), otherwise the matrix is reported as singular. -/
theorem C62_least_squares (ho : ExactNum o val) (origin : Int) (horg : origin = 0 ∨ origin = 1) (uk : List K → Kind) (r c d : Nat) (hrc : c < r)
    (al ar : Arr K) (A : Matrix (Fin r) (Fin c) F) (B : Matrix (Fin r) (Fin d) F) (ha : IsMatrix val ar A) (hb : IsMatrix val al B) :
    ((∀ v, A.mulVec v = 0 → v = 0) → ∃ k x, ∃ X : Matrix (Fin c) (Fin d) F, o.domino2 origin uk al ar = .ok (.arr k x) ∧ IsMatrix val x X ∧
      A.transpose * A * X = A.transpose * B ∧ ∀ Y j, sqNorm (A * X - B) j ≤ sqNorm (A * Y - B) j) ∧
    ((∃ v ≠ 0, A.mulVec v = 0) → o.domino2 origin uk al ar = .error .err) := by
  obtain ⟨al', ar', e, h1, h2⟩ := normalEq_spec ho origin horg uk al ar r c d (extM A) (extM B) (by omega) ((isMatrix_iff _ _ _).1 ha) ((isMatrix_iff _ _ _).1 hb)
  have : o.domino2 origin uk al ar = o.dominoSquare uk al' ar' := by
    unfold MatOps.domino2
    have hne : r * c ≠ 1 := fun h => by
      have := Nat.eq_one_of_mul_eq_one_right h
      have := Nat.eq_one_of_mul_eq_one_left h
      omega
    rw [if_neg (by rw [mat_data_length val ar A ha]; exact hne), ha.2.1]
    simp only [if_neg (show ¬ r < c by omega), colMatrix, hb.2.1, bind, Except.bind, List.headD_cons, ne_eq, not_true_eq_false, if_false, MatOps.prepare]
    rw [if_pos hrc, e]
  rw [this]
  have h := dominoSquare_matrix ho uk c d al' ar' _ _ (isMat_trans_mul h1) (isMat_trans_mul h2)
  refine ⟨fun h0 => ?_, fun h0 => h.2 ((dependent_det A).2 h0)⟩
  have h0' : (A.transpose * A).det ≠ 0 := by
    intro hd
    obtain ⟨v, hv, hv'⟩ := (dependent_det A).1 hd
    exact hv (h0 v hv')
  obtain ⟨k, x, X, e, h3, h4⟩ := h.1 h0'
  exact ⟨k, x, X, e, h3, h4, fun Y j => normal_min A B X Y h4 j⟩


/-! ### One element -/

/-- C62: a single element: the quotient. -/
theorem C62_one (ho : ExactNum o val) (origin : Int) (uk : List K → Kind) (al ar : Arr K) (a b : K) (ha : ar.data = [a]) (hb : al.data = [b])
    (hs : prod al.shape = 1) (h0 : val a ≠ 0) :
    ∃ k q, o.domino2 origin uk al ar = .ok (.arr k ⟨al.shape, [q]⟩) ∧ val a * val q = val b := by
  obtain ⟨q, e1, e2⟩ := ho.div b a h0
  refine ⟨uk [q], q, ?_, by rw [e2]; field_simp⟩
  unfold MatOps.domino2
  rw [if_pos (by rw [ha]; rfl)]
  simp only [array2, hs, forLoop, ha, hb, sliceAt, List.getElem?_cons_zero, bind, Except.bind, e1, pure, Except.pure]

/-- A single element divides only a single element: a longer left argument makes domino panic. -/
theorem C62_one_panics (ho : ExactNum o val) (origin : Int) (uk : List K → Kind) (al ar : Arr K) (a b b' : K) (l : List K) (ha : ar.data = [a])
    (hb : al.data = b :: b' :: l) (hs : prod al.shape = al.data.length) (h0 : val a ≠ 0) : o.domino2 origin uk al ar = .error .panic := by
  obtain ⟨q, e1, _⟩ := ho.div b a h0
  unfold MatOps.domino2
  rw [if_pos (by rw [ha]; rfl)]
  simp only [array2, hs, hb, List.length_cons, forLoop, ha, sliceAt, List.getElem?_cons_zero, bind, Except.bind, e1, zero_add]
  simp

/-! ### Examples -/

/-- rational numbers -/
def ratMat : MatOps Rat where
  abs a := .ok |a|
  conj a := .ok a
  recip a := if a = 0 then .error .err else .ok (1 / a)
  add a b := .ok (a + b)
  mul a b := .ok (a * b)
  div a b := if b = 0 then .error .err else .ok (a / b)
  sub a b := .ok (a - b)
  less a b := .ok (decide (a < b))
  zero := 0
  one := 1
  isZero a := decide (a = 0)

theorem ratMat_exact : ExactNum ratMat (fun x : Rat => x) where
  abs a := ⟨_, rfl, rfl⟩
  conj a := ⟨_, rfl, rfl⟩
  recip a h := ⟨_, if_neg h, rfl⟩
  add a b := ⟨_, rfl, rfl⟩
  mul a b := ⟨_, rfl, rfl⟩
  sub a b := ⟨_, rfl, rfl⟩
  div a b h := ⟨_, if_neg h, rfl⟩
  less a b := rfl
  zero := rfl
  one := rfl
  isZero a := decide_eq_true_iff

/-- a matrix that needs a pivot -/
example : IsMatrix (fun x : Rat => x) ⟨[2, 2], [0, 1, 2, 4]⟩ !![0, 1; 2, 4] ∧ (!![0, 1; 2, 4] : Matrix (Fin 2) (Fin 2) Rat).det ≠ 0 := by
  refine ⟨⟨rfl, rfl, ?_⟩, by rw [Matrix.det_fin_two_of]; norm_num⟩
  intro i j
  fin_cases i <;> fin_cases j <;> rfl

example : IsMatrix (fun x : Rat => x) ⟨[3, 2], [1, 1, 1, 2, 1, 3]⟩ !![1, 1; 1, 2; 1, 3] := by
  refine ⟨rfl, rfl, ?_⟩
  intro i j
  fin_cases i <;> fin_cases j <;> rfl

/-- Numbers and other values: the elementary functions reject the latter. -/
def mixedMat : MatOps (Option Rat) where
  abs | some a => .ok (some |a|) | none => .error .err
  conj a := .ok a
  recip | some a => .ok (some (1 / a)) | none => .error .err
  add | some a, some b => .ok (some (a + b)) | _, _ => .error .err
  mul | some a, some b => .ok (some (a * b)) | _, _ => .error .err
  div | some a, some b => .ok (some (a / b)) | _, _ => .error .err
  sub | some a, some b => .ok (some (a - b)) | _, _ => .error .err
  less | some a, some b => .ok (decide (a < b)) | _, _ => .error .err
  zero := some 0
  one := some 1
  isZero | some a => decide (a = 0) | none => false

/-- The error of the solver is ignored: a left argument that is not numeric (here one value `none`) is returned as the solution. -/
theorem C62_solver_error_ignored : mixedMat.domino2 1 (fun _ => .mixed) ⟨[2], [some 5, none]⟩ ⟨[2, 2], [some 1, some 0, some 0, some 1]⟩ =
    .ok (.arr .mixed ⟨[2, 1], [some 5, none]⟩) := by
  decide +kernel

end Iv

import Verif.Lemmas.Domino
import Verif.Props.Dot
import Verif.Props.Transpose
import Verif.Props.Scalar
import Mathlib.LinearAlgebra.Matrix.ToLinearEquiv
import Mathlib.LinearAlgebra.Matrix.NonsingularInverse
/-
C62: matrix divide and matrix inverse.
-/
namespace Iv
open Finset
variable {K F : Type} [Field F] [LinearOrder F] [IsStrictOrderedRing F]

/-! ### Specification -/

/-- the array `a` is the matrix `M` (every element stands for a number of the field) -/
def IsMatrix (val : K → F) (a : Arr K) {r c : Nat} (M : Matrix (Fin r) (Fin c) F) : Prop :=
  a.WF ∧ a.shape = [r, c] ∧ ∀ (i : Fin r) (j : Fin c), (a.get? [i, j]).map val = some (M i j)

/-- the array `a` is the vector `v` -/
def IsVector (val : K → F) (a : Arr K) {n : Nat} (v : Fin n → F) : Prop :=
  a.WF ∧ a.shape = [n] ∧ ∀ i : Fin n, (a.get? [i]).map val = some (v i)

/-! ### Matrices as functions -/

/-- the array holds the numbers `M i j` -/
def IsMat (val : K → F) (a : Arr K) (r c : Nat) (M : Nat → Nat → F) : Prop :=
  a.shape = [r, c] ∧ a.data.length = r * c ∧ ∀ i j, i < r → j < c → ∃ x, a.data[i * c + j]? = some x ∧ val x = M i j

/-- a matrix as a function of numbers -/
def extM {r c : Nat} (M : Matrix (Fin r) (Fin c) F) : Nat → Nat → F := fun i j => if h : i < r ∧ j < c then M ⟨i, h.1⟩ ⟨j, h.2⟩ else 0

omit [LinearOrder F] [IsStrictOrderedRing F] in
theorem extM_fin {r c : Nat} (M : Matrix (Fin r) (Fin c) F) (i : Fin r) (j : Fin c) : extM M i j = M i j := by
  unfold extM; rw [dif_pos ⟨i.2, j.2⟩]

theorem mat_index {r c i j : Nat} (hi : i < r) (hj : j < c) : i * c + j < r * c := by
  have : i * c + c ≤ r * c := by
    have := Nat.mul_le_mul_right c (show i + 1 ≤ r from hi)
    rw [Nat.add_mul] at this; omega
  omega

theorem mat_get (a : Arr K) (r c : Nat) (hs : a.shape = [r, c]) (i j : Nat) (hi : i < r) (hj : j < c) : a.get? [i, j] = a.data[i * c + j]? := by
  unfold Arr.get?
  rw [hs, if_pos ⟨hi, hj, trivial⟩]
  simp [flat, size]

omit [LinearOrder F] [IsStrictOrderedRing F] in
theorem isMatrix_iff (val : K → F) (a : Arr K) {r c : Nat} (M : Matrix (Fin r) (Fin c) F) : IsMatrix val a M ↔ IsMat val a r c (extM M) := by
  constructor
  · rintro ⟨h1, h2, h3⟩
    refine ⟨h2, by unfold Arr.WF at h1; rw [h1, h2]; simp [size], ?_⟩
    intro i j hi hj
    have := h3 ⟨i, hi⟩ ⟨j, hj⟩
    rw [mat_get a r c h2 i j hi hj] at this
    obtain ⟨x, e1, e2⟩ := Option.map_eq_some_iff.1 this
    refine ⟨x, e1, e2.trans ?_⟩
    unfold extM; rw [dif_pos ⟨hi, hj⟩]
  · rintro ⟨h1, h2, h3⟩
    refine ⟨by unfold Arr.WF; rw [h1, h2]; simp [size], h1, ?_⟩
    intro i j
    obtain ⟨x, e1, e2⟩ := h3 i j i.2 j.2
    rw [mat_get a r c h1 i j i.2 j.2, e1, Option.map_some, e2, extM_fin]

omit [LinearOrder F] [IsStrictOrderedRing F] in
theorem isMat_matrix {val : K → F} {a : Arr K} {r c : Nat} {M : Nat → Nat → F} (h : IsMat val a r c M) :
    IsMatrix val a (Matrix.of fun (i : Fin r) (j : Fin c) => M i j) := by
  rw [isMatrix_iff]
  refine ⟨h.1, h.2.1, ?_⟩
  intro i j hi hj
  obtain ⟨x, e1, e2⟩ := h.2.2 i j hi hj
  refine ⟨x, e1, e2.trans ?_⟩
  unfold extM; rw [dif_pos ⟨hi, hj⟩]; rfl

/-! ### Square systems -/

variable {o : MatOps K} {val : K → F}

omit [Field F] [LinearOrder F] [IsStrictOrderedRing F] in
theorem range_mapM {β : Type} (n : Nat) (g : Nat → Res β) (P : Nat → β → Prop) (h : ∀ i, i < n → ∃ v, g i = .ok v ∧ P i v) :
    ∃ vs, (List.range n).mapM g = .ok vs ∧ vs.length = n ∧ ∀ i, i < n → ∃ v, vs[i]? = some v ∧ P i v := by
  obtain ⟨vs, e, hl, hv⟩ := mapM_pure_ex (M := Except Fail) (l := List.range n) (g := g) (P := P) (fun i hi => h i (List.mem_range.1 hi))
  refine ⟨vs, e, by simpa using hl, ?_⟩
  intro i hi
  obtain ⟨v, e, _, hp⟩ := hv i i (by simp [hi])
  exact ⟨v, e, hp⟩

omit [LinearOrder F] [IsStrictOrderedRing F] in
theorem read_matrix (zero : K) (a : Arr K) (n : Nat) (M : Nat → Nat → F) (h : IsMat val a n n M) :
    ∃ data, ((List.range n).mapM fun i => (List.range n).mapM fun k => sliceAt a.data (i * n + k)) = .ok data ∧
      ∀ i j, i < n → j < n → val ((data.getD i []).getD j zero) = M i j := by
  obtain ⟨data, e, hl, hd⟩ := range_mapM n (fun i => (List.range n).mapM fun k => sliceAt a.data (i * n + k))
    (fun i row => ∀ j, j < n → val (row.getD j zero) = M i j)
    (by
      intro i hi
      obtain ⟨row, e, _, hr⟩ := range_mapM n (fun k => sliceAt a.data (i * n + k)) (fun k x => val x = M i k)
        (by
          intro k hk
          obtain ⟨x, e1, e2⟩ := h.2.2 i k hi hk
          exact ⟨x, sliceAt_eq_ok.2 e1, e2⟩)
      refine ⟨row, e, ?_⟩
      intro j hj
      obtain ⟨v, e, hv⟩ := hr j hj
      rw [List.getD_eq_getElem?_getD, e]; exact hv)
  refine ⟨data, e, ?_⟩
  intro i j hi hj
  obtain ⟨row, e, hr⟩ := hd i hi
  have : data.getD i [] = row := by rw [List.getD_eq_getElem?_getD, e]; rfl
  rw [this]; exact hr j hj

theorem solveCol_spec (ho : ExactNum o val) (n c : Nat) (A : Nat → Nat → K) (P : Nat → Nat) (a0 : Nat → Nat → F)
    (hlu : LUInv a0 n n (fun r c => val (A r c)) P) (rhs : Arr K) (b0 : Nat → Nat → F) (hb : IsMat val rhs n c b0) (k : Nat) (hk : k < c) (x0 : Nat → Option K) :
    ∃ col x, o.solveCol n A P c rhs.data k x0 = .ok (col, x) ∧ col.length = n ∧
      ∃ xs : Nat → F, (∀ i, i < n → ∃ y, col[i]? = some y ∧ val y = xs i) ∧ ∀ r, r < n → ∑ j ∈ range n, a0 r j * xs j = b0 r k := by
  obtain ⟨bs, e1, _, hbs⟩ := range_mapM n (fun i => sliceAt rhs.data (i * c + k)) (fun i x => val x = b0 i k)
    (by
      intro i hi
      obtain ⟨x, e1, e2⟩ := hb.2.2 i k hi hk
      exact ⟨x, sliceAt_eq_ok.2 e1, e2⟩)
  have hbv : ∀ i, i < n → val (bs.getD i o.zero) = b0 i k := by
    intro i hi
    obtain ⟨v, e, hv⟩ := hbs i hi
    rw [List.getD_eq_getElem?_getD, e]; exact hv
  obtain ⟨x, xs, ys, e2, hx, hy, hz⟩ := luSolve_spec ho n A (fun i => bs.getD i o.zero) P x0 (fun r hr => hlu.diag r hr)
  obtain ⟨col, e3, hcl, hcol⟩ := range_mapM n (fun i => copyOf (x i)) (fun i y => val y = val (xs i))
    (by intro i hi; exact ⟨xs i, by rw [hx i hi]; rfl, rfl⟩)
  refine ⟨col, x, ?_, hcl, fun i => val (xs i), hcol, ?_⟩
  · simp only [MatOps.solveCol, e1, bind, Except.bind, e2, e3, pure, Except.pure]
  · intro r hr
    have := hlu.solve (fun i => b0 i k) (fun i => val (xs i)) (fun i => val (ys i))
      (by intro r hr; rw [← hbv (P r) (hlu.perm_lt r hr)]; exact hy r hr) hz r hr
    exact this

theorem solveCols_spec (ho : ExactNum o val) (n c : Nat) (A : Nat → Nat → K) (P : Nat → Nat) (a0 : Nat → Nat → F)
    (hlu : LUInv a0 n n (fun r c => val (A r c)) P) (rhs : Arr K) (b0 : Nat → Nat → F) (hb : IsMat val rhs n c b0) (ks : List Nat) (hks : ∀ k ∈ ks, k < c)
    (x0 : Nat → Option K) :
    ∃ cs, o.solveCols n A P c rhs.data ks x0 = .ok cs ∧ List.Forall₂ (fun k col => col.length = n ∧
      ∃ xs : Nat → F, (∀ i, i < n → ∃ y, col[i]? = some y ∧ val y = xs i) ∧ ∀ r, r < n → ∑ j ∈ range n, a0 r j * xs j = b0 r k) ks cs := by
  induction ks generalizing x0 with
  | nil => exact ⟨[], rfl, .nil⟩
  | cons k ks ih =>
    obtain ⟨col, x, e, h1, h2⟩ := solveCol_spec ho n c A P a0 hlu rhs b0 hb k (hks k (by simp)) x0
    obtain ⟨cs, e', h'⟩ := ih (fun k hk => hks k (by simp [hk])) x
    refine ⟨col :: cs, ?_, .cons ⟨h1, h2⟩ h'⟩
    simp only [MatOps.solveCols, e, e', bind, Except.bind, pure, Except.pure]

/-- rows of equal length, one after the other -/
theorem flatMap_get {β : Type} (n c : Nat) (f : Nat → Nat → β) :
    ((List.range n).flatMap fun i => (List.range c).map fun k => f i k).length = n * c ∧
    ∀ i k, i < n → k < c → ((List.range n).flatMap fun i => (List.range c).map fun k => f i k)[i * c + k]? = some (f i k) := by
  induction n with
  | zero => exact ⟨by simp, fun i k h => absurd h (Nat.not_lt_zero _)⟩
  | succ n ih =>
    obtain ⟨h1, h2⟩ := ih
    rw [List.range_succ, List.flatMap_append]
    refine ⟨by rw [List.length_append, h1, List.flatMap_singleton, List.length_map, List.length_range, Nat.add_mul, Nat.one_mul], ?_⟩
    intro i k hi hk
    by_cases hin : i < n
    · rw [List.getElem?_append_left (by rw [h1]; exact mat_index hin hk), h2 i k hin hk]
    · have : i = n := by omega
      subst this
      rw [List.getElem?_append_right (by rw [h1]; omega), h1, show i * c + k - i * c = k by omega]
      simp [hk]

theorem dominoSquare_spec (ho : ExactNum o val) (uk : List K → Kind) (n c : Nat) (al ar : Arr K) (a0 b0 : Nat → Nat → F)
    (ha : IsMat val ar n n a0) (hb : IsMat val al n c b0) :
    (∃ k x X, o.dominoSquare uk al ar = .ok (.arr k x) ∧ IsMat val x n c X ∧ (∀ r j, r < n → j < c → ∑ i ∈ range n, a0 r i * X i j = b0 r j) ∧
      ∀ v : Nat → F, (∀ r, r < n → ∑ j ∈ range n, a0 r j * v j = 0) → ∀ i, i < n → v i = 0) ∨
    (o.dominoSquare uk al ar = .error .err ∧ ∃ v : Nat → F, (∃ i, i < n ∧ v i ≠ 0) ∧ ∀ r, r < n → ∑ j ∈ range n, a0 r j * v j = 0) := by
  obtain ⟨data, e1, hd⟩ := read_matrix o.zero ar n a0 ha
  have hn : ar.shape.headD 0 = n := by rw [ha.1]; rfl
  have hc : al.shape.getD 1 0 = c := by rw [hb.1]; rfl
  rcases lu_spec ho n (fun i k => (data.getD i []).getD k o.zero) with ⟨A, P, e2, hlu⟩ | ⟨e2, v, hv, hs⟩
  · left
    have hlu' : LUInv a0 n n (fun r c => val (A r c)) P := by
      refine ⟨hlu.perm_lt, hlu.perm_inj, hlu.diag, ?_⟩
      intro r c hr hc
      rw [← hd (P r) c (hlu.perm_lt r hr) hc]
      exact hlu.eq r c hr hc
    obtain ⟨cs, e3, hcs⟩ := solveCols_spec ho n c A P a0 hlu' al b0 hb (List.range c) (fun k hk => List.mem_range.1 hk) (fun _ => none)
    obtain ⟨f1, f2⟩ := flatMap_get n c (fun i k => (cs.getD k []).getD i o.zero)
    have hlen : cs.length = c := by have := hcs.length_eq; simpa using this.symm
    have hget : ∀ k, k < c → ∃ xs : Nat → F, (∀ i, i < n → val ((cs.getD k []).getD i o.zero) = xs i) ∧ ∀ r, r < n → ∑ j ∈ range n, a0 r j * xs j = b0 r k := by
      intro k hk
      obtain ⟨h1, h2⟩ := List.forall₂_iff_get.1 hcs
      obtain ⟨_, xs, h3, h4⟩ := h2 k (by simpa using hk) (by omega)
      refine ⟨xs, ?_, ?_⟩
      · intro i hi
        obtain ⟨y, e, hy⟩ := h3 i hi
        have : cs.getD k [] = cs.get ⟨k, by omega⟩ := by
          rw [List.getD_eq_getElem?_getD, List.getElem?_eq_getElem (by omega)]; rfl
        rw [this, List.getD_eq_getElem?_getD, e]; exact hy
      · intro r hr
        have := h4 r hr
        simpa using this
    refine ⟨uk (fromCols o.zero n c cs), ⟨[n, c], fromCols o.zero n c cs⟩, fun i k => val ((cs.getD k []).getD i o.zero), ?_, ⟨rfl, f1, ?_⟩, ?_, fun v hv i hi => hlu'.regular v hv i hi⟩
    · simp only [MatOps.dominoSquare, hn, hc, e1, e2, e3, bind, Except.bind, pure, Except.pure]
    · intro i k hi hk
      exact ⟨_, f2 i k hi hk, rfl⟩
    · intro r j hr hj
      obtain ⟨xs, h1, h2⟩ := hget j hj
      rw [← h2 r hr]
      refine sum_congr rfl fun i hi => ?_
      exact congrArg (a0 r i * ·) (h1 i (mem_range.1 hi))
  · right
    refine ⟨?_, v, hv, ?_⟩
    · simp only [MatOps.dominoSquare, hn, e1, e2, bind, Except.bind]
    · intro r hr
      rw [← hs r hr]
      refine sum_congr rfl fun j hj => ?_
      exact congrArg (· * v j) (hd r j hr (mem_range.1 hj)).symm

omit [LinearOrder F] [IsStrictOrderedRing F] in
theorem extM_sum {r n c : Nat} (M : Matrix (Fin r) (Fin n) F) (X : Nat → Nat → F) (i : Fin r) (j : Fin c) :
    ∑ k ∈ range n, extM M i k * X k j = (M * (Matrix.of fun (k : Fin n) (j : Fin c) => X k j)) i j := by
  rw [Finset.sum_range, Matrix.mul_apply]
  refine sum_congr rfl fun k _ => ?_
  rw [extM_fin]; rfl

omit [LinearOrder F] [IsStrictOrderedRing F] in
theorem singular_det {n : Nat} (M : Matrix (Fin n) (Fin n) F) :
    (∃ v : Nat → F, (∃ i, i < n ∧ v i ≠ 0) ∧ ∀ r, r < n → ∑ j ∈ range n, extM M r j * v j = 0) → M.det = 0 := by
  rintro ⟨v, ⟨i, hi, hv⟩, h⟩
  rw [← Matrix.exists_mulVec_eq_zero_iff]
  refine ⟨fun i => v i, ?_, ?_⟩
  · intro h0
    exact hv (congrFun h0 ⟨i, hi⟩)
  · funext r
    have := h r r.2
    rw [Finset.sum_range] at this
    simp only [extM_fin] at this
    exact this

omit [LinearOrder F] [IsStrictOrderedRing F] in
theorem regular_det {n : Nat} (M : Matrix (Fin n) (Fin n) F)
    (h : ∀ v : Nat → F, (∀ r, r < n → ∑ j ∈ range n, extM M r j * v j = 0) → ∀ i, i < n → v i = 0) : M.det ≠ 0 := by
  intro h0
  rw [← Matrix.exists_mulVec_eq_zero_iff] at h0
  obtain ⟨v, hv, hm⟩ := h0
  apply hv
  funext i
  have := h (fun i => if h : i < n then v ⟨i, h⟩ else 0) ?_ i i.2
  · simpa using this
  · intro r hr
    rw [Finset.sum_range]
    have := congrFun hm ⟨r, hr⟩
    simp only [Matrix.mulVec, dotProduct, Pi.zero_apply] at this
    rw [← this]
    refine sum_congr rfl fun k _ => ?_
    rw [← extM_fin M ⟨r, hr⟩ k]
    simp

theorem dominoSquare_matrix (ho : ExactNum o val) (uk : List K → Kind) (n c : Nat) (al ar : Arr K) (M : Matrix (Fin n) (Fin n) F) (B : Matrix (Fin n) (Fin c) F)
    (ha : IsMatrix val ar M) (hb : IsMatrix val al B) :
    (M.det ≠ 0 → ∃ k x X, o.dominoSquare uk al ar = .ok (.arr k x) ∧ IsMatrix val x X ∧ M * X = B) ∧
    (M.det = 0 → o.dominoSquare uk al ar = .error .err) := by
  rw [isMatrix_iff] at ha hb
  rcases dominoSquare_spec ho uk n c al ar (extM M) (extM B) ha hb with ⟨k, x, X, e, h1, h2, h3⟩ | ⟨e, h⟩
  · refine ⟨fun _ => ⟨k, x, _, e, isMat_matrix h1, ?_⟩, fun h0 => absurd h0 (regular_det M h3)⟩
    ext i j
    rw [← extM_sum, h2 i j i.2 j.2, extM_fin]
  · exact ⟨fun h0 => absurd (singular_det M h) h0, fun _ => e⟩

/-! ### Properties -/

theorem mat_data_length (val : K → F) (a : Arr K) {r c : Nat} (M : Matrix (Fin r) (Fin c) F) (h : IsMatrix val a M) : a.data.length = r * c :=
  ((isMatrix_iff val a M).1 h).2.1

/-- C62: B⌹A for a square matrix A (of more than one element): if A is invertible, the result X is the solution of A+.×X = B, otherwise the
matrix is reported as singular. -/
theorem C62_divide (ho : ExactNum o val) (origin : Int) (uk : List K → Kind) (n c : Nat) (hn : n ≠ 1) (al ar : Arr K)
    (A : Matrix (Fin n) (Fin n) F) (B : Matrix (Fin n) (Fin c) F) (ha : IsMatrix val ar A) (hb : IsMatrix val al B) :
    (A.det ≠ 0 → ∃ k x X, o.domino2 origin uk al ar = .ok (.arr k x) ∧ IsMatrix val x X ∧ A * X = B) ∧
    (A.det = 0 → o.domino2 origin uk al ar = .error .err) := by
  have hl : ar.data.length ≠ 1 := by
    rw [mat_data_length val ar A ha]
    intro h
    exact hn (Nat.eq_one_of_mul_eq_one_right h)
  have : o.domino2 origin uk al ar = o.dominoSquare uk al ar := by
    unfold MatOps.domino2
    rw [if_neg hl, ha.2.1]
    simp only [Nat.lt_irrefl, if_false, colMatrix, hb.2.1, bind, Except.bind, List.headD_cons, ne_eq, not_true_eq_false, MatOps.prepare, gt_iff_lt]
  rw [this]
  exact dominoSquare_matrix ho uk n c al ar A B ha hb

/-- C62: a vector as left argument is a matrix with one column; the result is a matrix with one column as well. -/
theorem C62_divide_vector (ho : ExactNum o val) (origin : Int) (uk : List K → Kind) (n : Nat) (hn : n ≠ 1) (al ar : Arr K)
    (A : Matrix (Fin n) (Fin n) F) (b : Fin n → F) (ha : IsMatrix val ar A) (hb : IsVector val al b) :
    (A.det ≠ 0 → ∃ k x, ∃ X : Matrix (Fin n) (Fin 1) F, o.domino2 origin uk al ar = .ok (.arr k x) ∧ IsMatrix val x X ∧ A.mulVec (fun i => X i 0) = b) ∧
    (A.det = 0 → o.domino2 origin uk al ar = .error .err) := by
  have hB : IsMatrix val (⟨[n, 1], al.data⟩ : Arr K) (Matrix.of fun (i : Fin n) (_ : Fin 1) => b i) := by
    obtain ⟨h1, h2, h3⟩ := hb
    rw [isMatrix_iff]
    refine ⟨rfl, by unfold Arr.WF at h1; rw [h2] at h1; simpa [size] using h1, ?_⟩
    intro i j hi hj
    have := h3 ⟨i, hi⟩
    unfold Arr.get? at this
    rw [h2, if_pos ⟨hi, trivial⟩] at this
    simp only [flat, size, Nat.mul_one, Nat.add_zero] at this
    obtain ⟨x, e1, e2⟩ := Option.map_eq_some_iff.1 this
    refine ⟨x, by rw [show i * 1 + j = i by omega]; exact e1, e2.trans ?_⟩
    unfold extM; rw [dif_pos ⟨hi, hj⟩]; rfl
  have hl : ar.data.length ≠ 1 := by
    rw [mat_data_length val ar A ha]
    intro h
    exact hn (Nat.eq_one_of_mul_eq_one_right h)
  have : o.domino2 origin uk al ar = o.dominoSquare uk ⟨[n, 1], al.data⟩ ar := by
    unfold MatOps.domino2
    rw [if_neg hl, ha.2.1]
    simp only [Nat.lt_irrefl, if_false, colMatrix, hb.2.1, bind, Except.bind, List.headD_cons, ne_eq, not_true_eq_false, MatOps.prepare, gt_iff_lt]
  rw [this]
  have h := dominoSquare_matrix ho uk n 1 _ ar A _ ha hB
  refine ⟨fun h0 => ?_, h.2⟩
  obtain ⟨k, x, X, e, h1, h2⟩ := h.1 h0
  refine ⟨k, x, X, e, h1, ?_⟩
  funext i
  have := congrFun (congrFun h2 i) 0
  exact this

/-- C62: ⌹A is the inverse of A, or an error if A is singular. -/
theorem C62_inverse (ho : ExactNum o val) (origin : Int) (uk : List K → Kind) (n : Nat) (hn : n ≠ 1) (ar : Arr K)
    (A : Matrix (Fin n) (Fin n) F) (ha : IsMatrix val ar A) :
    (A.det ≠ 0 → ∃ k x X, o.domino origin uk ar = .ok (.arr k x) ∧ IsMatrix val x X ∧ A * X = 1 ∧ X * A = 1) ∧
    (A.det = 0 → o.domino origin uk ar = .error .err) := by
  have hI : IsMatrix val (o.identity n) (1 : Matrix (Fin n) (Fin n) F) := by
    rw [isMatrix_iff]
    obtain ⟨f1, f2⟩ := flatMap_get n n (fun i k => if k = i then o.one else o.zero)
    refine ⟨rfl, f1, ?_⟩
    intro i j hi hj
    refine ⟨_, f2 i j hi hj, ?_⟩
    unfold extM
    rw [dif_pos ⟨hi, hj⟩, Matrix.one_apply]
    by_cases h : i = j
    · subst h; simp [ho.one]
    · rw [if_neg (fun h' => h h'.symm), if_neg (by simpa using h), ho.zero]
  have : o.domino origin uk ar = o.domino2 origin uk (o.identity n) ar := by
    unfold MatOps.domino
    rw [ha.2.1]
    simp only [ne_eq, not_true_eq_false, if_false]
  rw [this]
  have h := C62_divide ho origin uk n n hn (o.identity n) ar A 1 ha hI
  refine ⟨fun h0 => ?_, h.2⟩
  obtain ⟨k, x, X, e, h1, h2⟩ := h.1 h0
  exact ⟨k, x, X, e, h1, h2, mul_eq_one_comm.1 h2⟩

/-- C62: a matrix with more columns than rows is rejected, and so are matrices of different numbers of rows. -/
theorem C62_shape (origin : Int) (uk : List K → Kind) (al ar : Arr K) (r c : Nat) (hs : ar.shape = [r, c]) (hl : ar.data.length ≠ 1) :
    (r < c → o.domino2 origin uk al ar = .error .err) ∧
    (∀ r' c', al.shape = [r', c'] → r' ≠ r → o.domino2 origin uk al ar = .error .err) ∧
    (r ≠ c → o.domino origin uk ar = .error .err) := by
  refine ⟨fun h => ?_, fun r' c' h h' => ?_, fun h => ?_⟩
  · unfold MatOps.domino2
    rw [if_neg hl, hs]
    simp only [h, if_true]
  · unfold MatOps.domino2
    rw [if_neg hl, hs]
    simp only [colMatrix, h, bind, Except.bind, List.headD_cons, ne_eq, h', not_false_eq_true, if_true, ite_self]
  · unfold MatOps.domino
    rw [hs]
    simp only [ne_eq, h, not_false_eq_true, if_true]

end Iv

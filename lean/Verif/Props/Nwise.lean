import Verif.Props.Reduce
/-
C27 n-wise reduction.
-/
namespace Iv
variable {m : Type → Type} [Monad m] [LawfulMonad m] {α : Type}

/-- The axis argument of n-wise reduction: a non-negative axis, or -1 for the last one. -/
def NwAxis (rank : Nat) (axis : Int) (ax : Nat) : Prop :=
  ax < rank ∧ (axis = (ax : Int) ∨ (axis = -1 ∧ ax + 1 = rank))

theorem size_set (s : List Nat) (k v : Nat) (h : k < s.length) : size (s.set k v) = v * size (s.eraseIdx k) := by
  have h1 : k < (s.set k v).length := by simpa using h
  have h2 := insertIdx_eraseIdx_getD (l := s.set k v) h1
  rw [eraseIdx_set_self, getD_set, if_pos ⟨rfl, h⟩] at h2
  rw [← h2, size_insertIdx]
  rw [List.length_eraseIdx, if_pos h]; omega

theorem nwise_rows (uk : List α → Kind) (zero : α) (ident : Option α) (f : α → α → ExceptT Fail m α) (g)
    (k : Kind) (a : Arr α) (hw : a.WF) (hd : a.data ≠ []) (axis : Int) (ax : Nat) (hax : NwAxis a.shape.length axis ax)
    (n0 : Int) (h0 : n0 ≠ 0) (hle : n0.natAbs ≤ a.shape.getD ax 0) :
    nwise uk zero ident f g n0 (.arr k a) axis = (do
      let rows ← (allIdx (a.shape.eraseIdx ax)).mapM (fun idx => nwRow f g n0.natAbs (n0 < 0) (a.line ax idx))
      let r := Arr.ofLines (a.shape.set ax (a.shape.getD ax 0 - n0.natAbs + 1)) ax rows
      return .arr (uk r.data) r) := by
  obtain ⟨hlt, hax⟩ := hax
  have hpos : 0 < n0.natAbs := by omega
  have hsz : 0 < size a.shape := by rw [← hw]; exact List.length_pos_iff.2 hd
  generalize hNat : n0.natAbs = n at *
  let N := a.shape.getD ax 0
  have hne : a.shape ≠ [] := by intro h; rw [h] at hlt; simp at hlt
  have hsh : (a.shape.map Int.ofNat).set ax ((N : Int) - ((n : Int) - 1)) = (a.shape.set ax (N - n + 1)).map Int.ofNat := by
    rw [List.map_set]
    congr 1
    show _ = ((N - n + 1 : Nat) : Int)
    have : n ≤ N := hle
    omega
  have hnet : a.shape.set ax (N - n + 1) ≠ [] := by
    intro h; have := congrArg List.length h; simp at this; exact hne this
  have hszt : 0 < size (a.shape.set ax (N - n + 1)) := by
    rw [size_set _ _ _ hlt]
    have := size_set a.shape ax N hlt
    have h2 : a.shape.set ax N = a.shape := by
      show a.shape.set ax (a.shape.getD ax 0) = _
      rw [getD_eq_getElem _ _ hlt]; simp
    rw [h2] at this
    have : 0 < size (a.shape.eraseIdx ax) := by
      rcases Nat.eq_zero_or_pos (size (a.shape.eraseIdx ax)) with h | h
      · rw [h] at this; omega
      · exact h
    exact Nat.mul_pos (by omega) this
  have haxis : (if axis = -1 then (a.shape.length : Int) - 1 else axis) = (ax : Int) := by
    split
    · omega
    · omega
  unfold nwise
  simp only [haxis, hNat]
  rw [if_neg (by omega)]
  simp only [Int.toNat_natCast]
  rw [if_neg (by omega)]
  have hsh' := hsh
  simp only [N] at hsh'
  rw [hsh', prodI_ofNat hnet, if_neg (by omega), if_neg (by omega), if_neg (by omega), newIdxConverter_ok hne, ofRes_ok, pure_bind]
  have hmm : ((a.shape.set ax (a.shape.getD ax 0 - n + 1)).map Int.ofNat).map Int.toNat = a.shape.set ax (a.shape.getD ax 0 - n + 1) := by
    rw [List.map_map]
    conv => rhs; rw [← List.map_id (a.shape.set ax (a.shape.getD ax 0 - n + 1))]
    apply List.map_congr_left; intro x _; rfl
  have hne1 : a.shape.set ax 1 ≠ [] := by
    intro h; have := congrArg List.length h; simp at this; exact hne this
  simp only [hmm]
  rw [newIdxConverter_ok hnet, ofRes_ok, pure_bind, prod_eq_size hne1]
  simp only [Int.toNat_natCast]
  have := nwiseLoop_eq f g n (decide (n0 < 0)) a hw ax hlt hpos hle
  rw [List.length_set] at this
  rw [← bind_assoc, this, bind_assoc]
  simp only [pure_bind]
  congr 1
  funext rows
  congr 1
  unfold mkVal
  rw [if_pos (by
    rw [List.all_eq_true]; intro x hx
    obtain ⟨y, _, rfl⟩ := List.mem_map.1 hx
    simp), hmm]
  rfl

/-- Specification: the reductions of all windows of `n` consecutive items, first window first. -/
def windowFolds (f : α → α → ExceptT Fail m α) (n : Nat) (v : List α) : ExceptT Fail m (List α) :=
  (List.range (v.length + 1 - n)).mapM (fun i => rfold f (window v n i))

/-- C27: for every function with effects and failures that has no running-window shortcut (every
function but + and ×, or a window of at most 3 items), `n f/A` reduces every window of `n` items along
the axis; the axis length becomes len-n+1. -/
theorem C27_windows (uk : List α → Kind) (zero : α) (ident : Option α) (f : α → α → ExceptT Fail m α) (g)
    (k : Kind) (a : Arr α) (hw : a.WF) (hd : a.data ≠ []) (axis : Int) (ax : Nat) (hax : NwAxis a.shape.length axis ax)
    (n : Nat) (h0 : 0 < n) (hle : n ≤ a.shape.getD ax 0) (hslow : g = none ∨ n ≤ 3) :
    nwise uk zero ident f g n (.arr k a) axis = (do
      let rows ← (allIdx (a.shape.eraseIdx ax)).mapM (fun idx => windowFolds f n (a.line ax idx))
      let r := Arr.ofLines (a.shape.set ax (a.shape.getD ax 0 - n + 1)) ax rows
      return .arr (uk r.data) r) := by
  rw [nwise_rows uk zero ident f g k a hw hd axis ax hax n (by omega) hle]
  simp only [Int.natAbs_natCast]
  congr 1
  apply mapM_congr'
  intro idx _
  unfold nwRow applyNwise
  rw [if_neg (by simp)]
  rcases hslow with rfl | h3
  · exact applyNwise_slow f n _
  · cases g with
    | none => exact applyNwise_slow f n _
    | some g => simp only; rw [if_neg (by omega)]; exact applyNwise_slow f n _

theorem window_reverse {v : List α} {n i : Nat} (h : i + n ≤ v.length) :
    window v.reverse n (v.length - n - i) = (window v n i).reverse := by
  unfold window
  rw [List.drop_reverse, List.take_reverse]
  congr 1
  have h1 : v.length - (v.length - n - i) = i + n := by omega
  rw [h1, List.drop_take]
  simp only [List.length_take]
  have h2 : min (i + n) v.length - n = i := by omega
  rw [h2]
  congr 1
  omega

/-- C27, negative `n`: item `i` along the axis is the reduction of the reversed window starting at `i`
(here for pure total functions without shortcut; in general the windows are taken from the end of the
vector to its beginning, see `nwise_rows`). -/
theorem C27_negative (uk : List α → Kind) (zero : α) (ident : Option α) (f : α → α → α)
    (g : Option (α → α → ExceptT Fail m α))
    (k : Kind) (a : Arr α) (hw : a.WF) (hd : a.data ≠ []) (axis : Int) (ax : Nat) (hax : NwAxis a.shape.length axis ax)
    (n : Nat) (h0 : 0 < n) (hle : n ≤ a.shape.getD ax 0) (hslow : g = none ∨ n ≤ 3) :
    nwise (m := m) uk zero ident (fun x y => pure (f x y)) g (-(n : Int)) (.arr k a) axis = (do
      let rows ← (allIdx (a.shape.eraseIdx ax)).mapM (fun idx =>
        (List.range ((a.line ax idx).length + 1 - n)).mapM (fun i => rfold (fun x y => pure (f x y)) (window (a.line ax idx) n i).reverse))
      let r := Arr.ofLines (a.shape.set ax (a.shape.getD ax 0 - n + 1)) ax rows
      return .arr (uk r.data) r) := by
  rw [nwise_rows uk zero ident _ g k a hw hd axis ax hax (-(n : Int)) (by omega) (by simpa using hle)]
  simp only [Int.natAbs_neg, Int.natAbs_natCast]
  congr 1
  apply mapM_congr'
  intro idx hidx
  have hN := (readLine_eq hw hax.1 (mem_allIdx.1 hidx)).2.1
  generalize hv : a.line ax idx = v at *
  unfold nwRow
  rw [if_pos (by simp; omega)]
  have hsl : applyNwise (m := m) (fun x y => pure (f x y)) g n v.reverse = windowFolds (fun x y => pure (f x y)) n v.reverse := by
    unfold applyNwise
    rcases hslow with rfl | h3
    · exact applyNwise_slow _ n _
    · cases g with
      | none => exact applyNwise_slow _ n _
      | some g => simp only; rw [if_neg (by omega)]; exact applyNwise_slow _ n _
  rw [hsl]
  unfold windowFolds
  have hbody : ∀ (u : List α) (_ : u.length = v.length) (i : Nat), i ∈ List.range (v.length + 1 - n) →
      ∃ w, rfold (m := m) (fun x y => pure (f x y)) (window u n i) = pure w ∧
        ∀ init last, window u n i = init ++ [last] → w = init.foldr f last := by
    intro u hu i hi
    have hi' := List.mem_range.1 hi
    have hl := window_length (vec := u) (n := n) (i := i) (by omega)
    have hne : window u n i ≠ [] := by intro h; rw [h] at hl; simp at hl; omega
    refine ⟨(window u n i).dropLast.foldr f ((window u n i).getLast hne), ?_, ?_⟩
    · conv => lhs; rw [(List.dropLast_concat_getLast hne).symm]
      exact rfold_pure f _ _
    · intro init last h
      have h1 : (window u n i).dropLast = init := by rw [h]; simp
      have h2 : (window u n i).getLast hne = last := by simp [h]
      rw [h1, h2]
  rw [List.length_reverse]
  obtain ⟨w1, e1, l1, p1⟩ := mapM_pure_ex (M := ExceptT Fail m) (hbody v.reverse (by simp))
  have hbody2 : ∀ i ∈ List.range (v.length + 1 - n),
      ∃ w, rfold (m := m) (fun x y => pure (f x y)) (window v n i).reverse = pure w ∧ w1.reverse[i]? = some w := by
    intro i hi
    have hi' := List.mem_range.1 hi
    have hlw : w1.length = v.length + 1 - n := by rw [l1, List.length_range]
    obtain ⟨u, hu, hu2, _⟩ := p1 (v.length - n - i) (v.length - n - i) (by
      rw [List.getElem?_range]; omega)
    refine ⟨u, ?_, ?_⟩
    · rw [← window_reverse (by omega)]; exact hu2
    · rw [List.getElem?_reverse (by omega), hlw, ← hu]; congr 1; omega
  obtain ⟨w2, e2, l2, p2⟩ := mapM_pure_ex (M := ExceptT Fail m) hbody2
  rw [e1, e2, pure_bind]
  congr 1
  apply List.ext_getElem?
  intro i
  have hlw : w1.length = v.length + 1 - n := by rw [l1, List.length_range]
  have hlw2 : w2.length = v.length + 1 - n := by rw [l2, List.length_range]
  by_cases hi : i < v.length + 1 - n
  · obtain ⟨u, hu, _, hu3⟩ := p2 i i (by rw [List.getElem?_range hi])
    rw [hu, hu3]
  · rw [List.getElem?_eq_none (by simp; omega), List.getElem?_eq_none (by omega)]

/-- C27, the running-window shortcut (used for + and × with windows longer than 3): if the function
is associative and the inverse really undoes the leftmost item of every window, the result is the same
as reducing each window. -/
theorem C27_shortcut (uk : List α → Kind) (zero : α) (ident : Option α) {f : α → α → α}
    (hf : ∀ x y z, f (f x y) z = f x (f y z)) (g : α → α → ExceptT Fail m α)
    (k : Kind) (a : Arr α) (hw : a.WF) (hd : a.data ≠ []) (axis : Int) (ax : Nat) (hax : NwAxis a.shape.length axis ax)
    (n : Nat) (h0 : 0 < n) (hle : n ≤ a.shape.getD ax 0)
    (hg : ∀ idx ∈ allIdx (a.shape.eraseIdx ax), ∀ i x y ys, i + n < a.shape.getD ax 0 → window (a.line ax idx) n i = x :: y :: ys →
      g ((y :: ys).foldl f x) x = pure (ys.foldl f y)) :
    nwise (m := m) uk zero ident (fun x y => pure (f x y)) (some g) n (.arr k a) axis = (do
      let rows ← (allIdx (a.shape.eraseIdx ax)).mapM (fun idx => windowFolds (fun x y => pure (f x y)) n (a.line ax idx))
      let r := Arr.ofLines (a.shape.set ax (a.shape.getD ax 0 - n + 1)) ax rows
      return .arr (uk r.data) r) := by
  by_cases h3 : n ≤ 3
  · exact C27_windows uk zero ident _ (some g) k a hw hd axis ax hax n h0 hle (Or.inr h3)
  rw [nwise_rows uk zero ident _ (some g) k a hw hd axis ax hax n (by omega) hle]
  simp only [Int.natAbs_natCast]
  congr 1
  apply mapM_congr'
  intro idx hidx
  have hN := (readLine_eq hw hax.1 (mem_allIdx.1 hidx)).2.1
  unfold nwRow applyNwise
  rw [if_neg (by simp)]
  simp only
  rw [if_pos (by omega)]
  exact fastLoop_eq hf g n (by omega) _ (by rw [hN]; exact hg idx hidx) (by omega)

/-- the integer addition and subtraction as functions of the interpreter -/
def plusI (x y : Int) : Int := wrap (x + y)

theorem plusI_assoc (x y z : Int) : plusI (plusI x y) z = plusI x (plusI y z) := by
  unfold plusI wrap
  rw [Int.bmod_add_bmod, Int.add_bmod_bmod]
  congr 1; omega

theorem wrap_of_I64 {x : Int} (h : I64 x) : wrap x = x := by
  unfold wrap I64 at *
  rw [Int.bmod_eq_of_le] <;> omega

theorem I64_wrap (x : Int) : I64 (wrap x) := by
  unfold wrap I64
  have h1 := Int.le_bmod (x := x) (m := 2 ^ 64) (by decide)
  have h2 := Int.bmod_lt (x := x) (m := 2 ^ 64) (by decide)
  constructor <;> omega

/-- C27 for + on 64 bit integers: the shortcut is exact for every window length and every vector,
including sums that wrap around. -/
theorem C27_plus (uk : List Int → Kind) (zero : Int) (ident : Option Int)
    (k : Kind) (a : Arr Int) (hI : ∀ x ∈ a.data, I64 x) (hw : a.WF) (hd : a.data ≠ []) (axis : Int) (ax : Nat)
    (hax : NwAxis a.shape.length axis ax) (n : Nat) (h0 : 0 < n) (hle : n ≤ a.shape.getD ax 0) :
    nwise (m := m) uk zero ident (fun x y => pure (wrap (x + y))) (some (fun x y => pure (wrap (x - y)))) n (.arr k a) axis = (do
      let rows ← (allIdx (a.shape.eraseIdx ax)).mapM (fun idx =>
        windowFolds (fun x y => pure (wrap (x + y))) n (a.line ax idx))
      let r := Arr.ofLines (a.shape.set ax (a.shape.getD ax 0 - n + 1)) ax rows
      return .arr (uk r.data) r) := by
  refine C27_shortcut (f := plusI) uk zero ident plusI_assoc _ k a hw hd axis ax hax n h0 hle ?_
  intro idx hidx i x y ys _ hwd
  have hmem : y ∈ a.data := by
    have h1 : y ∈ window (a.line ax idx) n i := by rw [hwd]; simp
    have h2 : y ∈ a.line ax idx := List.mem_of_mem_drop (List.mem_of_mem_take h1)
    unfold Arr.line at h2
    obtain ⟨j, _, hj⟩ := List.mem_filterMap.1 h2
    unfold Arr.get? at hj
    split at hj
    · exact List.mem_of_getElem? hj
    · cases hj
  have hR : ∀ (l : List Int) (z : Int), I64 z → I64 (l.foldl plusI z) := by
    intro l
    induction l with
    | nil => intro z hz; exact hz
    | cons b l ih => intro z _; exact ih _ (I64_wrap _)
  rw [List.foldl_cons, foldl_assoc' plusI_assoc]
  have hF := hR ys y (hI y hmem)
  generalize ys.foldl plusI y = F at *
  congr 1
  unfold plusI
  conv => rhs; rw [← wrap_of_I64 hF]
  unfold wrap
  rw [Int.bmod_sub_bmod]
  congr 1; omega

/-- Counterexample for × (property C27 fails there): the shortcut divides by the leftmost item, which
is not the inverse of a product that wrapped around.  `4×/` of `4294967296 4294967296 1 1 1` gives 0 for the
second window, whose product is 4294967296. -/
theorem C27_times_counterexample :
    nwise (m := Id) (fun _ => .int) 0 none (fun x y => pure (wrap (x * y)))
      (some (fun x y => ofRes (match intDiv2 x y with | some z => .ok z | none => .error .err))) 4
      (.arr .int ⟨[5], [4294967296, 4294967296, 1, 1, 1]⟩) (-1) = pure (.arr .int ⟨[2], [0, 0]⟩) ∧
    windowFolds (m := Id) (fun x y => pure (wrap (x * y))) 4 [4294967296, 4294967296, 1, 1, 1] =
      pure [0, 4294967296] := by
  exact ⟨rfl, rfl⟩

/-- magnitude of the product of a list of integers -/
def absProd : List Int → Nat
  | [] => 1
  | x :: xs => x.natAbs * absProd xs

/-- integer multiplication as a function of the interpreter -/
def timesI (x y : Int) : Int := wrap (x * y)

theorem timesI_assoc (x y z : Int) : timesI (timesI x y) z = timesI x (timesI y z) := by
  unfold timesI wrap
  rw [Int.bmod_mul_bmod, Int.mul_bmod_bmod, Int.mul_assoc]

theorem absProd_pos {l : List Int} (h : ∀ x ∈ l, x ≠ 0) : 0 < absProd l := by
  induction l with
  | nil => simp [absProd]
  | cons a l ih =>
    rw [absProd]
    exact Nat.mul_pos (by have := h a (by simp); omega) (ih (fun x hx => h x (by simp [hx])))

theorem foldl_timesI (l : List Int) (z : Int) (hz : ∀ x ∈ l, x ≠ 0) (h : z.natAbs * absProd l < 2 ^ 63) :
    (l.foldl timesI z).natAbs = z.natAbs * absProd l := by
  induction l generalizing z with
  | nil => simp [absProd]
  | cons a l ih =>
    have hp := absProd_pos (l := l) (fun x hx => hz x (by simp [hx]))
    rw [absProd, ← Nat.mul_assoc, ← Int.natAbs_mul] at h
    have hr : I64 (z * a) := by
      have : (z * a).natAbs < 2 ^ 63 := Nat.lt_of_le_of_lt (Nat.le_mul_of_pos_right _ hp) h
      unfold I64; omega
    rw [List.foldl_cons]
    have e : timesI z a = z * a := wrap_of_I64 hr
    rw [e, ih _ (fun x hx => hz x (by simp [hx])) h, absProd, ← Nat.mul_assoc, ← Int.natAbs_mul]

/-- C27 for × on 64 bit integers: the shortcut is exact if no item is 0 and the
product of every window fits into 64 bits; without these conditions the result differs, see
`C27_times_counterexample`. -/
theorem C27_times (uk : List Int → Kind) (zero : Int) (ident : Option Int)
    (k : Kind) (a : Arr Int) (hw : a.WF) (hd : a.data ≠ []) (axis : Int) (ax : Nat)
    (hax : NwAxis a.shape.length axis ax) (n : Nat) (h0 : 0 < n) (hle : n ≤ a.shape.getD ax 0)
    (hz : ∀ x ∈ a.data, x ≠ 0)
    (hb : ∀ idx ∈ allIdx (a.shape.eraseIdx ax), ∀ i, i + n ≤ a.shape.getD ax 0 → absProd (window (a.line ax idx) n i) < 2 ^ 63) :
    nwise (m := m) uk zero ident (fun x y => pure (wrap (x * y)))
      (some (fun x y => ofRes (match intDiv2 x y with | some z => .ok z | none => .error .err))) n (.arr k a) axis = (do
      let rows ← (allIdx (a.shape.eraseIdx ax)).mapM (fun idx =>
        windowFolds (fun x y => pure (wrap (x * y))) n (a.line ax idx))
      let r := Arr.ofLines (a.shape.set ax (a.shape.getD ax 0 - n + 1)) ax rows
      return .arr (uk r.data) r) := by
  refine C27_shortcut (f := timesI) uk zero ident timesI_assoc _ k a hw hd axis ax hax n h0 hle ?_
  intro idx hidx i x y ys hin hwd
  have hz' : ∀ v ∈ x :: y :: ys, v ≠ 0 := by
    intro v hv
    rw [← hwd] at hv
    have h2 : v ∈ a.line ax idx := List.mem_of_mem_drop (List.mem_of_mem_take hv)
    unfold Arr.line at h2
    obtain ⟨j, _, hj⟩ := List.mem_filterMap.1 h2
    unfold Arr.get? at hj
    split at hj
    · exact hz v (List.mem_of_getElem? hj)
    · cases hj
  have hB := hb idx hidx i (by omega)
  rw [hwd, absProd] at hB
  have hx : x ≠ 0 := hz' x (by simp)
  have hyp := absProd_pos (l := y :: ys) (fun v hv => hz' v (List.mem_cons_of_mem _ hv))
  have hB2 : y.natAbs * absProd ys < 2 ^ 63 := by
    rw [← absProd]
    exact Nat.lt_of_le_of_lt (Nat.le_mul_of_pos_left _ (by omega)) hB
  have hF := foldl_timesI ys y (fun v hv => hz' v (by simp [hv])) hB2
  rw [← absProd] at hF hB2
  rw [List.foldl_cons, foldl_assoc' timesI_assoc]
  generalize ys.foldl timesI y = F at *
  rw [← hF, ← Int.natAbs_mul] at hB
  have hr : I64 (x * F) := by unfold I64; omega
  have hr2 : I64 F := by unfold I64; omega
  have e : timesI x F = x * F := wrap_of_I64 hr
  rw [e]
  unfold intDiv2
  simp only
  rw [if_neg hx, Int.mul_tdiv_cancel_left _ hx, wrap_of_I64 hr2, Int.mul_comm F x, wrap_of_I64 hr, if_pos rfl, ofRes_ok]

/-- C27: `0 f/A` gives the identity item everywhere along an axis one longer. -/
theorem C27_zero (uk : List α → Kind) (zero i : α) (f : α → α → ExceptT Fail m α) (g) (k : Kind) (a : Arr α)
    (hw : a.WF) (hd : a.data ≠ []) (axis : Int) (ax : Nat) (hax : NwAxis a.shape.length axis ax) :
    ∃ d, nwise uk zero (some i) f g 0 (.arr k a) axis = pure (.arr (uk d) ⟨a.shape.set ax (a.shape.getD ax 0 + 1), d⟩) ∧
      d = List.replicate (size (a.shape.set ax (a.shape.getD ax 0 + 1))) i := by
  obtain ⟨hlt, hax⟩ := hax
  refine ⟨_, ?_, rfl⟩
  have hsz : 0 < size a.shape := by rw [← hw]; exact List.length_pos_iff.2 hd
  have hne : a.shape ≠ [] := by intro h; rw [h] at hlt; simp at hlt
  have hsh : (a.shape.map Int.ofNat).set ax (((a.shape.getD ax 0 : Nat) : Int) - (((0 : Nat) : Int) - 1)) = (a.shape.set ax (a.shape.getD ax 0 + 1)).map Int.ofNat := by
    rw [List.map_set]
    congr 1
  have hnet : a.shape.set ax (a.shape.getD ax 0 + 1) ≠ [] := by
    intro h; have := congrArg List.length h; simp at this; exact hne this
  have hszt : 0 < size (a.shape.set ax (a.shape.getD ax 0 + 1)) := by
    rw [size_set _ _ _ hlt]
    have := size_set a.shape ax (a.shape.getD ax 0) hlt
    have h2 : a.shape.set ax (a.shape.getD ax 0) = a.shape := by
      rw [getD_eq_getElem _ _ hlt]; simp
    rw [h2] at this
    have : 0 < size (a.shape.eraseIdx ax) := by
      rcases Nat.eq_zero_or_pos (size (a.shape.eraseIdx ax)) with h | h
      · rw [h] at this; omega
      · exact h
    exact Nat.mul_pos (by omega) this
  have haxis : (if axis = -1 then (a.shape.length : Int) - 1 else axis) = (ax : Int) := by
    split
    · omega
    · omega
  unfold nwise
  simp only [haxis, Int.natAbs_zero]
  rw [if_neg (by omega)]
  simp only [Int.toNat_natCast]
  rw [if_neg (by omega), hsh, prodI_ofNat hnet, if_neg (by omega), if_neg (by omega), if_pos trivial]
  unfold needIdent
  simp only [pure_bind, Int.toNat_natCast]
  congr 1
  unfold mkVal
  have hmm : ((a.shape.set ax (a.shape.getD ax 0 + 1)).map Int.ofNat).map Int.toNat = a.shape.set ax (a.shape.getD ax 0 + 1) := by
    rw [List.map_map]
    conv => rhs; rw [← List.map_id (a.shape.set ax (a.shape.getD ax 0 + 1))]
    apply List.map_congr_left; intro x _; rfl
  rw [if_pos (by
    rw [List.all_eq_true]; intro x hx
    obtain ⟨y, _, rfl⟩ := List.mem_map.1 hx
    simp), hmm]

/-- C27: a window more than 2 longer than the axis is rejected; a window exactly 2 longer is a
failed evaluation too (`make` with a negative length panics); scalars are rejected. -/
theorem C27_too_long (uk : List α → Kind) (zero : α) (ident : Option α) (f : α → α → ExceptT Fail m α) (g) (k : Kind)
    (xs : List α) (n : Nat) (x : α) :
    (xs.length + 2 < n → nwise uk zero ident f g n (.arr k ⟨[xs.length], xs⟩) (-1) = throw .err) ∧
    (n = xs.length + 2 → nwise uk zero ident f g n (.arr k ⟨[xs.length], xs⟩) (-1) = throw .panic) ∧
    nwise uk zero ident f g n (.scalar x) (-1) = throw .err := by
  refine ⟨?_, ?_, rfl⟩
  · intro h
    unfold nwise
    simp only [List.length_cons, List.length_nil, Int.natAbs_natCast]
    rw [if_neg (by decide)]
    rw [if_pos]
    show (n : Int) - (xs.length : Int) > 2
    omega
  · intro h
    unfold nwise
    simp only [List.length_cons, List.length_nil, Int.natAbs_natCast]
    rw [if_neg (by decide), if_neg (by show ¬ ((n : Int) - (xs.length : Int) > 2); omega), if_pos]
    show ((xs.length : Int) - ((n : Int) - 1)) < 0
    omega

/-- C27: a window one longer than the axis: there are len-n+1 = 0 windows, the result has axis length 0; f is not called. -/
theorem C27_no_window (uk : List α → Kind) (zero : α) (ident : Option α) (f : α → α → ExceptT Fail m α) (g) (k : Kind) (a : Arr α)
    (axis : Int) (ax : Nat) (hax : NwAxis a.shape.length axis ax) (n0 : Int) (hn : n0.natAbs = a.shape.getD ax 0 + 1) :
    nwise uk zero ident f g n0 (.arr k a) axis = pure (.arr .mixed ⟨a.shape.set ax 0, []⟩) := by
  obtain ⟨hlt, hax⟩ := hax
  have hne : a.shape.set ax 0 ≠ [] := by
    intro h; have := congrArg List.length h; simp at this; rw [this] at hlt; simp at hlt
  have haxis : (if axis = -1 then (a.shape.length : Int) - 1 else axis) = (ax : Int) := by
    rcases hax with h | ⟨h, h2⟩
    · rw [if_neg (by omega)]; exact h
    · rw [if_pos h]; omega
  have hsh : (a.shape.map Int.ofNat).set ax (((a.shape.getD ax 0 : Nat) : Int) - ((n0.natAbs : Int) - 1)) = (a.shape.set ax 0).map Int.ofNat := by
    rw [List.map_set, hn]
    congr 1
    simp
  have hsz : size (a.shape.set ax 0) = 0 := by rw [size_set _ _ _ hlt, Nat.zero_mul]
  unfold nwise
  simp only [haxis, Int.toNat_natCast]
  rw [if_neg (by omega), if_neg (by omega)]
  simp only [hsh, prodI_ofNat hne, hsz]
  rw [if_neg (by decide), if_pos (by decide), mkVal_ofNat]

/-- the hypotheses are met: windows of a 2 by 4 matrix along both axes, negative n, the shortcut for +
with wrap-around -/
example : NwAxis 2 (-1) 1 ∧ NwAxis 2 0 0 ∧
    nwise (m := Id) (α := Int) (fun _ => .int) 0 none (fun x y => pure (x - y)) none 2 (.arr .int ⟨[2, 4], [1, 2, 4, 8, 3, 6, 9, 0]⟩) (-1)
      = pure (.arr .int ⟨[2, 3], [-1, -2, -4, -3, -3, 9]⟩) ∧
    nwise (m := Id) (α := Int) (fun _ => .int) 0 none (fun x y => pure (x - y)) none (-2) (.arr .int ⟨[2, 4], [1, 2, 4, 8, 3, 6, 9, 0]⟩) (-1)
      = pure (.arr .int ⟨[2, 3], [1, 2, 4, 3, 3, -9]⟩) ∧
    nwise (m := Id) (α := Int) (fun _ => .int) 0 none (fun x y => pure (wrap (x + y))) (some (fun x y => pure (wrap (x - y)))) 4
      (.arr .int ⟨[6], [9223372036854775807, 1, 2, 3, 4, 5]⟩) (-1)
      = pure (.arr .int ⟨[3], [-9223372036854775803, 10, 14]⟩) := by
  refine ⟨⟨by decide, Or.inr (by decide)⟩, ⟨by decide, Or.inl rfl⟩, by rfl, by rfl, by rfl⟩

end Iv

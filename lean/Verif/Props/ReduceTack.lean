import Verif.Model.ReduceTack
import Verif.Props.Reduce
import Verif.Props.TableOps
import Verif.Props.Decode
import Verif.Props.Int
import Verif.Model.Std
/-
C94: ⊣/ and ⊢/, identity items, reductions of dictionaries and tables.
-/
namespace Iv
variable {m : Type → Type} [Monad m] [LawfulMonad m] {α K : Type} [DecidableEq K]

theorem tack_skip (inner : Nat) (l rest : List α) (i n : Nat) (res : List α) (hn : 0 < n) (h : n + l.length = inner) (hl : l ≠ []) :
    tackLoop true inner (l ++ rest) i n res = tackLoop true inner rest i 0 res := by
  induction l generalizing n with
  | nil => exact absurd rfl hl
  | cons x xs ih =>
    simp only [List.cons_append, tackLoop]
    rw [if_neg (by simp; omega)]
    cases xs with
    | nil => simp only [List.length_cons, List.length_nil] at h; rw [if_pos (by omega)]; rfl
    | cons y ys =>
      simp only [List.length_cons] at h
      rw [if_neg (by omega)]
      exact ih (n + 1) (by omega) (by simp; omega) (by simp)

theorem tack_first (inner : Nat) (x : α) (l rest : List α) (i : Nat) (res : List α) (h : (x :: l).length = inner) :
    tackLoop true inner (x :: l ++ rest) i 0 res = tackLoop true inner rest (i + 1) 0 (res.set i x) := by
  simp only [List.cons_append, tackLoop]
  rw [if_pos (by simp)]
  cases l with
  | nil => simp only [List.length_cons, List.length_nil] at h; rw [if_pos (by omega)]; rfl
  | cons y ys =>
    simp only [List.length_cons] at h
    rw [if_neg (by omega)]
    exact tack_skip inner (y :: ys) rest (i + 1) _ _ (by omega) (by simp; omega) (by simp)

theorem tack_last (inner : Nat) (l rest : List α) (x : α) (i n : Nat) (res : List α) (h : n + (l ++ [x]).length = inner) :
    tackLoop false inner (l ++ [x] ++ rest) i n res = tackLoop false inner rest (i + 1) 0 (res.set i x) := by
  induction l generalizing n with
  | nil =>
    simp only [List.nil_append, List.length_cons, List.length_nil] at h
    simp only [List.nil_append, List.cons_append, tackLoop]
    rw [if_pos (by simp; omega), if_pos (by omega)]
  | cons y ys ih =>
    simp only [List.cons_append, List.length_cons, List.length_append, List.length_nil] at h
    simp only [List.cons_append, tackLoop]
    rw [if_neg (by simp; omega), if_neg (by omega)]
    exact ih (n + 1) (by simp; omega)

theorem tack_rows (first : Bool) (inner : Nat) (hi : 0 < inner) (c : Nat) (hc : c = if first then 0 else inner - 1) (rows : Nat) (data : List α) (hd : data.length = rows * inner)
    (i : Nat) (res : List α) (hres : i + rows ≤ res.length) :
    (tackLoop first inner data i 0 res).length = res.length ∧
    ∀ j, (tackLoop first inner data i 0 res)[j]? = if i ≤ j ∧ j < i + rows then data[(j - i) * inner + c]? else res[j]? := by
  induction rows generalizing data i res with
  | zero =>
    have : data = [] := List.length_eq_zero_iff.1 (by omega)
    subst this
    refine ⟨rfl, ?_⟩
    intro j
    rw [if_neg (by omega)]; rfl
  | succ rows ih =>
    have hlen : inner ≤ data.length := by rw [hd, Nat.succ_mul]; omega
    have hrow : (data.take inner).length = inner := by simp; omega
    have hcl : c < inner := by subst hc; split <;> omega
    have step : ∃ x, data[c]? = some x ∧
        tackLoop first inner data i 0 res = tackLoop first inner (data.drop inner) (i + 1) 0 (res.set i x) := by
      cases first with
      | true =>
        cases hx : data.take inner with
        | nil => rw [hx] at hrow; simp at hrow; omega
        | cons x l =>
          refine ⟨x, ?_, ?_⟩
          · simp at hc; subst hc
            have := congrArg (fun l => l[0]?) hx
            simp only [List.getElem?_cons_zero] at this
            rw [List.getElem?_take, if_pos hi] at this
            exact this
          · have := tack_first inner x l (data.drop inner) i res (by rw [← hx]; exact hrow)
            rw [← hx, List.take_append_drop] at this
            exact this
      | false =>
        have hne : data.take inner ≠ [] := by intro e; rw [e] at hrow; simp at hrow; omega
        have hx := List.dropLast_append_getLast hne
        refine ⟨(data.take inner).getLast hne, ?_, ?_⟩
        · simp at hc; subst hc
          rw [List.getLast_eq_getElem]
          rw [List.getElem_take, ← List.getElem?_eq_getElem]
          congr 1; omega
        · have := tack_last inner (data.take inner).dropLast (data.drop inner) ((data.take inner).getLast hne) i 0 res
            (by rw [hx]; omega)
          rw [hx, List.take_append_drop] at this
          exact this
    obtain ⟨x, hx, e⟩ := step
    obtain ⟨h1, h2⟩ := ih (data.drop inner) (by rw [List.length_drop, hd, Nat.succ_mul]; omega) (i + 1) (res.set i x) (by simp; omega)
    rw [e]
    refine ⟨by rw [h1]; simp, ?_⟩
    intro j
    rw [h2 j]
    by_cases hj : j = i
    · subst hj
      rw [if_neg (by omega), if_pos (by omega), List.getElem?_set_self (by omega), Nat.sub_self, Nat.zero_mul, Nat.zero_add, hx]
    · by_cases hb : i + 1 ≤ j ∧ j < i + 1 + rows
      · rw [if_pos hb, if_pos (by omega), List.getElem?_drop]
        congr 1
        have : j - i = (j - (i + 1)) + 1 := by omega
        rw [this, Nat.succ_mul]; omega
      · rw [if_neg hb, if_neg (by omega), List.getElem?_set_ne (by omega)]

/-- C94.  `⊣/A` and `⊢/A` of an array of rank 2 or more: the first or the last element of every vector along the last axis. -/
theorem C94_tack (zero : α) (k : Kind) (a : Arr α) (hw : a.WF) (ls : List Nat) (n : Nat) (hs : a.shape = ls ++ [n]) (hl : ls ≠ [])
    (hn : 0 < n) (first : Bool) :
    ∃ r : Arr α, reduceTack zero first none (.arr k a) = .ok (.arr k r) ∧ r.WF ∧ r.shape = ls ∧
      ∀ idx, InB ls idx → r.get? idx = a.get? (idx ++ [if first then 0 else n - 1]) := by
  cases a with
  | mk s data =>
    simp only at hs
    subst hs
    have hd : data.length = size ls * n := by
      have : data.length = size (ls ++ [n]) := hw
      rw [this, size_append]; simp [size]
    obtain ⟨h1, h2⟩ := tack_rows first n hn _ rfl (size ls) data hd 0 (List.replicate (prod ls) zero)
      (by simp [prod_eq_size hl])
    refine ⟨⟨ls, tackLoop first n data 0 0 (List.replicate (prod ls) zero)⟩, ?_, ?_, rfl, ?_⟩
    · unfold reduceTack
      cases ls with
      | nil => exact absurd rfl hl
      | cons l0 ls =>
        cases ls with
        | nil => rfl
        | cons l1 ls =>
          have e : (l1 :: (ls ++ [n])).dropLast = l1 :: ls := by
            have := List.dropLast_concat (l₁ := l1 :: ls) (b := n)
            simpa using this
          simp [e]
    · show _ = _
      rw [h1]; simp [prod_eq_size hl]
    · intro idx hidx
      have e1 : InB (ls ++ [n]) (idx ++ [if first then 0 else n - 1]) :=
        (InB_append hidx.length_eq).2 ⟨hidx, by split <;> omega, trivial⟩
      simp only [Arr.get?]
      have hf := flat_lt hidx
      rw [if_pos hidx, if_pos e1, h2, if_pos (by omega), flat_snoc _ _ _ _ hidx.length_eq, Nat.sub_zero]

/-- C94.  Of a vector: the first or last element as a scalar, the empty array for a vector without elements; scalars and the empty
array are returned.  A left argument is an error. -/
theorem C94_tack_vector (zero : α) (k : Kind) (xs : List α) (x : α) (L : Val α) (R : Val α) (first : Bool) :
    (∀ h : xs ≠ [], reduceTack zero true none (.arr k ⟨[xs.length], xs⟩) = .ok (.scalar (xs.head h)) ∧
      reduceTack zero false none (.arr k ⟨[xs.length], xs⟩) = .ok (.scalar (xs.getLast h))) ∧
    reduceTack zero first none (.arr k ⟨[0], []⟩) = .ok .empty ∧
    reduceTack zero first none (.scalar x) = .ok (.scalar x) ∧ reduceTack zero first none .empty = .ok .empty ∧
    reduceTack zero first (some L) R = .error .err := by
  refine ⟨?_, rfl, rfl, rfl, rfl⟩
  intro h
  have hl : 0 < xs.length := List.length_pos_iff.2 h
  have h0 : ¬ xs.length = 0 := by omega
  constructor
  · simp only [reduceTack]
    simp [sliceAt_ok hl, bind, Except.bind, pure, Except.pure, h0, List.head_eq_getElem]
  · simp only [reduceTack]
    simp [sliceAt_ok (show xs.length - 1 < xs.length by omega), bind, Except.bind, pure, Except.pure, h0, List.getLast_eq_getElem]

/-! Reductions and scans of dictionaries and tables. -/

theorem reduceObjLoop_ok (uk : List α → Kind) (red : Val α → ExceptT Fail m (Val α)) (istable : Bool) (src : Dict K (Val α)) (g : K → Val α)
    (ks : List K) (hg : ∀ k ∈ ks, ∃ v, src.at k = some v ∧ red (toArrayVal uk v) = pure (g k)) (d : Dict K (RVal α)) :
    ∃ d', reduceObjLoop uk red istable src ks d = pure d' ∧ d'.keys = d.keys ++ ks ∧
      ∀ k, d'.at k = if k ∈ ks then some (wrapScalar istable (g k)) else d.at k := by
  induction ks generalizing d with
  | nil => exact ⟨d, rfl, by simp, by simp⟩
  | cons k ks ih =>
    obtain ⟨v, h1, h2⟩ := hg k (by simp)
    obtain ⟨d', e, hk, ha⟩ := ih (fun k' h => hg k' (by simp [h])) ⟨d.keys ++ [k], mapSet d.map k (wrapScalar istable (g k))⟩
    refine ⟨d', ?_, by rw [hk]; simp, ?_⟩
    · simp only [reduceObjLoop, h1, h2, pure_bind]
      exact e
    · intro k'
      rw [ha k']
      by_cases hm : k' ∈ ks
      · simp [hm]
      · rw [if_neg hm]
        show mapGet _ k' = _
        rw [mapGet_set]
        by_cases e : k' = k
        · subst e; simp
        · simp [e, hm, Ne.symm e, Dict.at]

/-- C94.  A reduction or scan `red` that succeeds on every value of a dictionary or table gives an object of the same kind with the
same keys in the same order; the value of each key is the reduction of the value of that key (a scalar as a vector of one element); in a
table a scalar result is a list of one element. -/
theorem C94_object (uk : List α → Kind) (red : Val α → ExceptT Fail m (Val α)) (R : DObj K (Val α)) (g : K → Val α)
    (hg : ∀ k ∈ R.src.keys, ∃ v, R.src.at k = some v ∧ red (toArrayVal uk v) = pure (g k)) :
    ∃ o, reduceTable uk red R = pure o ∧ o.isTable = R.isTable ∧ o.src.keys = R.src.keys ∧
      (∀ k, o.src.at k = if k ∈ R.src.keys then some (wrapScalar R.isTable (g k)) else none) ∧
      ∀ t n, o = .tab t → R.src.keys ≠ [] → (∀ k ∈ R.src.keys, (wrapScalar true (g k)).vecLen = some n) → t.rows = n := by
  obtain ⟨d', e, hk, ha⟩ := reduceObjLoop_ok uk red R.isTable R.src g R.src.keys hg Dict.empty
  have hk' : d'.keys = R.src.keys := by rw [hk]; simp [Dict.empty]
  refine ⟨asKind RVal.vecLen R.isTable d', ?_, ?_, ?_, ?_, ?_⟩
  · unfold reduceTable
    rw [e, pure_bind]
  · unfold asKind; cases R.isTable <;> rfl
  · have : (asKind RVal.vecLen R.isTable d').src = d' := by unfold asKind; cases R.isTable <;> rfl
    rw [this, hk]; simp [Dict.empty]
  · have : (asKind RVal.vecLen R.isTable d').src = d' := by unfold asKind; cases R.isTable <;> rfl
    intro k
    rw [this, ha]
    rfl
  · intro t n ht hne hn
    unfold asKind at ht
    by_cases hb : R.isTable = true
    · rw [if_pos hb] at ht
      cases ht
      cases hks : R.src.keys with
      | nil => exact absurd hks hne
      | cons k0 ks =>
        have hm : k0 ∈ R.src.keys := by rw [hks]; simp
        have h2 := ha k0
        rw [if_pos hm, hb] at h2
        simp only [dict2table, hk', hks, h2, Option.bind_some, hn k0 hm, Option.getD_some]
    · rw [if_neg hb] at ht; cases ht

theorem reduceObjLoop_fails (uk : List α → Kind) (red : Val α → ExceptT Fail m (Val α)) (istable : Bool) (src : Dict K (Val α)) (pre : List K)
    (k : K) (post : List K) (hpre : ∀ k ∈ pre, ∃ v w, src.at k = some v ∧ red (toArrayVal uk v) = pure w) (v : Val α) (hv : src.at k = some v)
    (f : Fail) (hf : red (toArrayVal uk v) = throw f) (d : Dict K (RVal α)) :
    reduceObjLoop uk red istable src (pre ++ k :: post) d = throw f := by
  induction pre generalizing d with
  | nil =>
    simp only [List.nil_append, reduceObjLoop, hv, hf]
    exact throw_bind' _ _
  | cons k' pre ih =>
    obtain ⟨v', w, h1, h2⟩ := hpre k' (by simp)
    simp only [List.cons_append, reduceObjLoop, h1, h2, pure_bind]
    exact ih (fun k h => hpre k (by simp [h])) _

/-- C94.  The first failure in the order of the keys is the failure of the whole. -/
theorem C94_object_fails (uk : List α → Kind) (red : Val α → ExceptT Fail m (Val α)) (R : DObj K (Val α)) (pre : List K) (k : K)
    (post : List K) (hk : R.src.keys = pre ++ k :: post)
    (hpre : ∀ k ∈ pre, ∃ v w, R.src.at k = some v ∧ red (toArrayVal uk v) = pure w) (v : Val α) (hv : R.src.at k = some v)
    (f : Fail) (hf : red (toArrayVal uk v) = throw f) : reduceTable uk red R = throw f := by
  unfold reduceTable
  rw [hk, reduceObjLoop_fails uk red R.isTable R.src pre k post hpre v hv f hf]
  exact throw_bind' _ _

/-- C94.  `f/T` of a table whose columns are vectors of the same length `n ≥ 1`: a table of one row; each column is a list of one
element, the right-to-left fold of the column. -/
theorem C94_reduce_table (uk : List α → Kind) (ident : Option α) (f : α → α → ExceptT Fail m α) (t : Tab K (Val α)) (hne : t.dict.keys ≠ [])
    (col : K → List α) (kd : K → Kind) (n : Nat) (hn : 0 < n)
    (hc : ∀ k ∈ t.dict.keys, (col k).length = n ∧ t.dict.at k = some (.arr (kd k) ⟨[n], col k⟩))
    (sum : K → α) (hsum : ∀ k ∈ t.dict.keys, rfold f (col k) = pure (sum k)) :
    ∃ t', reduceTable uk (fun v => reduct uk ident f v (-1)) (.tab t) = pure (.tab t') ∧ t'.rows = 1 ∧ t'.dict.keys = t.dict.keys ∧
      ∀ k ∈ t.dict.keys, t'.dict.at k = some (.one (sum k)) := by
  have hg : ∀ k ∈ (DObj.tab t).src.keys, ∃ v, (DObj.tab t).src.at k = some v ∧
      (fun v => reduct uk ident f v (-1)) (toArrayVal uk v) = pure (.scalar (sum k)) := by
    intro k hk
    obtain ⟨h1, h2⟩ := hc k hk
    refine ⟨_, h2, ?_⟩
    have hxs : col k ≠ [] := by intro e; rw [e] at h1; simp at h1; omega
    have := C25_vector uk ident f (kd k) (col k) hxs (-1) (Or.inr ⟨by omega, by omega⟩)
    rw [h1, hsum k hk, pure_bind] at this
    exact this
  obtain ⟨o, e, h1, h2, h3, h4⟩ := C94_object uk (fun v => reduct uk ident f v (-1)) (.tab t) (fun k => .scalar (sum k)) hg
  cases o with
  | dict d => simp [DObj.isTable] at h1
  | tab t' =>
    have hat : ∀ k ∈ t.dict.keys, t'.dict.at k = some (.one (sum k)) := by
      intro k hk
      have := h3 k
      exact this.trans (if_pos hk)
    exact ⟨t', e, h4 t' 1 rfl hne (fun k _ => rfl), h2, hat⟩

/-- C94.  `f\T` of a table of `n ≥ 1` rows: the same columns with the same number of rows; each column holds the folds of all its
prefixes. -/
theorem C94_scan_table (uk : List α → Kind) (f : α → α → ExceptT Fail m α) (t : Tab K (Val α)) (hne : t.dict.keys ≠ [])
    (col : K → List α) (kd : K → Kind) (n : Nat) (hn : 0 < n)
    (hc : ∀ k ∈ t.dict.keys, (col k).length = n ∧ t.dict.at k = some (.arr (kd k) ⟨[n], col k⟩))
    (sums : K → List α) (hsum : ∀ k ∈ t.dict.keys, (sums k).length = n ∧ prefixFolds f (col k) = pure (sums k)) :
    ∃ t', reduceTable uk (fun v => scanfunc uk f v (-1)) (.tab t) = pure (.tab t') ∧ t'.rows = n ∧ t'.dict.keys = t.dict.keys ∧
      ∀ k ∈ t.dict.keys, t'.dict.at k = some (.val (.arr (uk (sums k)) ⟨[n], sums k⟩)) := by
  have hg : ∀ k ∈ (DObj.tab t).src.keys, ∃ v, (DObj.tab t).src.at k = some v ∧
      (fun v => scanfunc uk f v (-1)) (toArrayVal uk v) = pure (.arr (uk (sums k)) ⟨[n], sums k⟩) := by
    intro k hk
    obtain ⟨h1, h2⟩ := hc k hk
    refine ⟨_, h2, ?_⟩
    have hxs : col k ≠ [] := by intro e; rw [e] at h1; simp at h1; omega
    have := C26_vector uk f (kd k) (col k) hxs (-1) (Or.inr ⟨by omega, by omega⟩)
    rw [h1, (hsum k hk).2, pure_bind, (hsum k hk).1] at this
    exact this
  obtain ⟨o, e, h1, h2, h3, h4⟩ := C94_object uk (fun v => scanfunc uk f v (-1)) (.tab t) (fun k => .arr (uk (sums k)) ⟨[n], sums k⟩) hg
  cases o with
  | dict d => simp [DObj.isTable] at h1
  | tab t' =>
    refine ⟨t', e, h4 t' n rfl hne (fun k _ => rfl), h2, ?_⟩
    intro k hk
    have := h3 k
    exact this.trans (if_pos hk)

/-! Identity items. -/

/-- the number of a Bool or Int -/
def BI.value : BI → Int
  | .bool b => if b then 1 else 0
  | .int n => n

/-- C94.  The identity items of the arithmetic functions are identities of the functions on all integers: of both arguments for `+`
and `×`, of the right one for `-` and `÷`, of the left one for `|` and for `!` (numbers up to 20; larger ones leave the integers). -/
theorem C94_identity_arith (x : Int) (hx : I64 x) :
    identityItem "+" = some (.int 0) ∧ intAdd2 0 x = some x ∧ intAdd2 x 0 = some x ∧
    identityItem "×" = some (.int 1) ∧ intMul2 1 x = some x ∧ intMul2 x 1 = some x ∧
    identityItem "-" = some (.int 0) ∧ intSub2 x 0 = some x ∧
    identityItem "÷" = some (.int 1) ∧ intDiv2 x 1 = some x ∧
    identityItem "|" = some (.int 0) ∧ intAbs2 0 x = some x ∧
    identityItem "!" = some (.int 1) ∧ (0 ≤ x → x ≤ 20 → intGamma2 1 x = some x) := by
  have hw := wrap_eq_of_I64 hx
  have hd : intDiv2 x 1 = some x := by simp [intDiv2, hw]
  refine ⟨by decide, by simp [intAdd2, hw], by simp [intAdd2, hw], by decide, by simp [intMul2, hw], by simp [intMul2, hw], by decide,
    by simp [intSub2, hw], by decide, hd, by decide, ?_, by decide, ?_⟩
  · have h1 : intIsZero 0 = true := by decide
    have h2 : wrap 0 = 0 := by decide
    have h3 : wrap 1 = 1 := by decide
    simp [intAbs2, genAbs2, intOps, h1, intAdd2, h3, hd, intMul2, h2, intSub2, hw]
  · intro h0 h20
    have : x = 0 ∨ x = 1 ∨ x = 2 ∨ x = 3 ∨ x = 4 ∨ x = 5 ∨ x = 6 ∨ x = 7 ∨ x = 8 ∨ x = 9 ∨ x = 10 ∨ x = 11 ∨ x = 12 ∨ x = 13 ∨ x = 14 ∨
        x = 15 ∨ x = 16 ∨ x = 17 ∨ x = 18 ∨ x = 19 ∨ x = 20 := by omega
    rcases this with h | h | h | h | h | h | h | h | h | h | h | h | h | h | h | h | h | h | h | h | h <;> subst h <;> decide

/-- C94.  The identity items of the comparisons are identities on truth values: of the left argument for `<` and `≤`, of the right one
for `>` and `≥`, of both for `=` and `≠`. -/
theorem C94_identity_compare (b : Bool) :
    identityItem "<" = some (.int 0) ∧ compareFn goEquals intLess .lt 0 (bool2int b) = some b ∧
    identityItem "≤" = some (.int 1) ∧ compareFn goEquals intLess .le 1 (bool2int b) = some b ∧
    identityItem ">" = some (.int 0) ∧ compareFn goEquals intLess .gt (bool2int b) 0 = some b ∧
    identityItem "≥" = some (.int 1) ∧ compareFn goEquals intLess .ge (bool2int b) 1 = some b ∧
    identityItem "=" = some (.int 1) ∧ compareFn goEquals intLess .eq 1 (bool2int b) = some b ∧ compareFn goEquals intLess .eq (bool2int b) 1 = some b ∧
    identityItem "≠" = some (.int 0) ∧ compareFn goEquals intLess .ne 0 (bool2int b) = some b ∧ compareFn goEquals intLess .ne (bool2int b) 0 = some b := by
  cases b <;> decide

/-- C94.  The identity item of `∨` is an identity for all booleans and integers; that of `∧` for booleans and for the integers from 0
on (of a negative number the least common multiple with 1 is its magnitude). -/
theorem C94_identity_logic (x : BI) :
    identityItem "∨" = some (.int 0) ∧
    (∃ y, logicalScalar .or (.int 0) x = some y ∧ y.value = x.value) ∧ (∃ y, logicalScalar .or x (.int 0) = some y ∧ y.value = x.value) ∧
    identityItem "∧" = some (.int 1) ∧
    (0 ≤ x.value → I64 x.value →
      (∃ y, logicalScalar .and (.int 1) x = some y ∧ y.value = x.value) ∧ ∃ y, logicalScalar .and x (.int 1) = some y ∧ y.value = x.value) := by
  refine ⟨by decide, ?_, ?_, by decide, ?_⟩
  · cases x with
    | bool b => cases b <;> exact ⟨_, rfl, by decide⟩
    | int n =>
      by_cases h0 : n = 0
      · subst h0; exact ⟨_, rfl, by decide⟩
      · by_cases h1 : n = 1
        · subst h1; exact ⟨_, rfl, by decide⟩
        · exact ⟨_, (C37_zero n h0 h1).1, rfl⟩
  · cases x with
    | bool b => cases b <;> exact ⟨_, rfl, by decide⟩
    | int n =>
      by_cases h0 : n = 0
      · subst h0; exact ⟨_, rfl, by decide⟩
      · by_cases h1 : n = 1
        · subst h1; exact ⟨_, rfl, by decide⟩
        · exact ⟨_, (C37_zero n h0 h1).2.1, rfl⟩
  · intro hx hI
    cases x with
    | bool b => cases b <;> exact ⟨⟨_, rfl, by decide⟩, ⟨_, rfl, by decide⟩⟩
    | int n =>
      simp only [BI.value] at hx hI
      by_cases h0 : n = 0
      · subst h0; exact ⟨⟨_, rfl, by decide⟩, ⟨_, rfl, by decide⟩⟩
      · by_cases h1 : n = 1
        · subst h1; exact ⟨⟨_, rfl, by decide⟩, ⟨_, rfl, by decide⟩⟩
        · have hn : (n.natAbs : Int) = n := by omega
          have e1 : I64 1 := by decide
          unfold I64 at hI
          have hb : n.natAbs < 2 ^ 63 := by omega
          obtain ⟨l, g, a1, _, _, a4, a5, a6, a7⟩ := C37_lcm 1 n e1 hI (by omega) h0 (Or.inr h1) (by simpa using hb)
          obtain ⟨l', g', b1, _, _, b4, b5, b6, b7⟩ := C37_lcm n 1 hI e1 h0 (by omega) (Or.inl h1) (by simpa using hb)
          have c1 : l = n := Int.dvd_antisymm (by omega) (by omega) (a7 n (Int.one_dvd n) (Int.dvd_refl n)) a6
          have c2 : l' = n := Int.dvd_antisymm (by omega) (by omega) (b7 n (Int.dvd_refl n) (Int.one_dvd n)) b5
          subst c1
          exact ⟨⟨_, a1, rfl⟩, ⟨_, b1, by simp only [BI.value]; omega⟩⟩

/-- C94 is false for `⌊` and `⌈`: their items are exchanged.  `⌊/⍳0` is the smallest float `lo`, and `lo⌊x` is `lo` for every `x`
above it; `⌈/⍳0` is the largest float `hi`, and `hi⌈x` is `hi` for every `x` below it.  Exchanged they would be identities. -/
theorem C94_identity_min_max {V O : Type} (e : StdEnv V O) (lo hi x : TNum V) (h1 : e.less lo x = some true) (h2 : e.less hi x = some false) :
    identityItem "⌊" = some .minusMaxFloat ∧ e.fn2 .min lo x = some lo ∧
    identityItem "⌈" = some .maxFloat ∧ e.fn2 .max hi x = some hi ∧
    e.fn2 .max lo x = some x ∧ e.fn2 .min hi x = some x := by
  refine ⟨by decide, ?_, by decide, ?_, ?_, ?_⟩ <;> simp [StdEnv.fn2, cmpOf, h1, h2]

/-! Concrete cases. -/

example : reduceTack (0 : Int) true none (.arr .int ⟨[2, 3], [1, 2, 3, 4, 5, 6]⟩) = .ok (.arr .int ⟨[2], [1, 4]⟩) := by decide
example : reduceTack (0 : Int) false none (.arr .int ⟨[2, 3], [1, 2, 3, 4, 5, 6]⟩) = .ok (.arr .int ⟨[2], [3, 6]⟩) := by decide
/-- the table a: 1 2 3, b: 4 5 6 -/
def tackDemo : Tab String (Val Int) :=
  ⟨⟨["a", "b"], [("a", .arr .int ⟨[3], [1, 2, 3]⟩), ("b", .arr .int ⟨[3], [4, 5, 6]⟩)]⟩, 3⟩
example : ∃ t', reduceTable (m := Id) (fun _ => .int) (fun v => reduct (fun _ => .int) (some 0) (fun x y => pure (x + y)) v (-1)) (.tab tackDemo) =
    pure (.tab t') ∧ t'.rows = 1 ∧ t'.dict.keys = ["a", "b"] ∧
      ∀ k ∈ ["a", "b"], t'.dict.at k = some (.one (if k = "a" then 6 else 15)) := by
  refine C94_reduce_table (m := Id) _ _ _ tackDemo (by simp [tackDemo]) (fun k => if k = "a" then [1, 2, 3] else [4, 5, 6]) (fun _ => .int) 3 (by omega) ?_
    (fun k => if k = "a" then 6 else 15) ?_
  · intro k hk
    simp only [tackDemo, List.mem_cons, List.not_mem_nil, or_false] at hk
    rcases hk with h | h <;> subst h <;> exact ⟨rfl, rfl⟩
  · intro k hk
    simp only [tackDemo, List.mem_cons, List.not_mem_nil, or_false] at hk
    rcases hk with h | h <;> subst h <;> rfl

end Iv

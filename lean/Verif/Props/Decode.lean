import Verif.Lemmas.Decode
import Verif.Props.Rank
/-
C24 encode and decode, in exact arithmetic (`E`: rationals with the mathematical floor).
-/
namespace Iv

/-- Specification: the value of the digits `D` in the mixed radix system `L` (Horner's rule, first digit most significant). -/
def mixedValue (L D : List ℚ) : ℚ := (L.zip D).foldl (fun acc p => acc * p.1 + p.2) 0

theorem flat_snoc (ls : List Nat) (n : Nat) (idx : List Nat) (i : Nat) (h : idx.length = ls.length) :
    flat (ls ++ [n]) (idx ++ [i]) = flat ls idx * n + i := by
  rw [flat_append' h]
  simp [flat, size]

theorem line_last {α} (a : Arr α) (hw : a.WF) (ls : List Nat) (n : Nat) (hs : a.shape = ls ++ [n]) (idx : List Nat) (hi : InB ls idx) :
    a.line ls.length idx = (a.data.drop (flat ls idx * n)).take n := by
  have hl := hi.length_eq
  have hf := flat_lt hi
  have hd : a.data.length = size ls * n := by rw [hw, hs, size_append]; simp [size]
  have hle : flat ls idx * n + n ≤ size ls * n := by
    calc flat ls idx * n + n = (flat ls idx + 1) * n := by ring
      _ ≤ _ := Nat.mul_le_mul_right _ hf
  apply List.ext_getElem?
  intro i
  unfold Arr.line
  have hsn : a.shape.getD ls.length 0 = n := by simp [hs]
  rw [hsn]
  have key : ∀ i, i < n → a.get? (idx.insertIdx ls.length i) = a.data[flat ls idx * n + i]? := by
    intro i hin
    rw [← hl, List.insertIdx_length_self]
    rw [Arr.get?_of_inB (by rw [hs, InB_append hl]; exact ⟨hi, by simp [InB, hin]⟩), hs, flat_snoc _ _ _ _ hl]
  have hlen : ((List.range n).filterMap (fun i => a.get? (idx.insertIdx ls.length i))) =
      (List.range n).filterMap (fun i => a.data[flat ls idx * n + i]?) := by
    apply List.filterMap_congr
    intro i hi; rw [key i (by simpa using hi)]
  rw [hlen]
  have h2 : (List.range n).filterMap (fun i => a.data[flat ls idx * n + i]?) = (a.data.drop (flat ls idx * n)).take n := by
    have : (List.range n).map (fun i => a.data[flat ls idx * n + i]?) = ((a.data.drop (flat ls idx * n)).take n).map some := by
      apply List.ext_getElem?
      intro j
      rw [List.getElem?_map, List.getElem?_map, List.getElem?_take, List.getElem?_drop]
      by_cases hj : j < n
      · rw [List.getElem?_range hj, if_pos hj, List.getElem?_eq_getElem (show flat ls idx * n + j < a.data.length by omega)]; simp
      · rw [List.getElem?_eq_none (by simpa using hj), if_neg hj]; rfl
    have h3 := congrArg (List.filterMap id) this
    rw [List.filterMap_map, List.filterMap_map] at h3
    simpa [Function.comp_def] using h3
  rw [h2]

theorem powerRows_spec (a : Arr ℚ) (hw : a.WF) (ls : List Nat) (n : Nat) (hs : a.shape = ls ++ [n]) (hn : n ≠ 0) :
    ∃ p, powerRows E a.data n = .ok p ∧ p.length = a.data.length ∧
      ∀ idx, InB ls idx → (⟨a.shape, p⟩ : Arr ℚ).line ls.length idx = powers (a.line ls.length idx) := by
  have hd : a.data.length = size ls * n := by rw [hw, hs, size_append]; simp [size]
  have hq : a.data.length / n = size ls := by rw [hd]; exact Nat.mul_div_cancel _ (Nat.pos_of_ne_zero hn)
  have hrl : ∀ i, i < size ls → ((a.data.drop (i * n)).take n).length = n := by
    intro i hi
    rw [List.length_take, List.length_drop, hd]
    have : i * n + n ≤ size ls * n := by
      calc i * n + n = (i + 1) * n := by ring
        _ ≤ _ := Nat.mul_le_mul_right _ hi
    omega
  unfold powerRows
  rw [forLoop_ok (g := fun i => powers ((a.data.drop (i * n)).take n)) _ (fun k _ => powerRow_eq _), hq]
  have hparts : ∀ q ∈ (List.range (size ls)).map (fun i => powers ((a.data.drop (i * n)).take n)), q.length = n := by
    intro q hq
    obtain ⟨i, hi, rfl⟩ := List.mem_map.1 hq
    rw [powers_length, hrl i (by simpa using hi)]
  have hpl := flatten_length' _ n hparts
  simp only [List.length_map, List.length_range] at hpl
  refine ⟨_, rfl, by rw [hpl, hd], ?_⟩
  intro idx hi
  have hf := flat_lt hi
  have hw' : (⟨a.shape, ((List.range (size ls)).map (fun i => powers ((a.data.drop (i * n)).take n))).flatten⟩ : Arr ℚ).WF := by
    show List.length _ = size a.shape
    rw [hpl, hs, size_append]; simp [size]
  rw [line_last _ hw' ls n hs idx hi, line_last _ hw ls n hs idx hi]
  show (List.take n (List.drop (flat ls idx * n) (List.flatten _))) = _
  apply List.ext_getElem?
  intro j
  rw [List.getElem?_take]
  by_cases hj : j < n
  · rw [if_pos hj, List.getElem?_drop, flatten_get _ n hparts _ _ hj, List.getElem?_map, List.getElem?_range hf]
    rfl
  · rw [if_neg hj, List.getElem?_eq_none]
    rw [powers_length, hrl _ hf]; omega

theorem dot_mixed (L D : List ℚ) (h : L.length = D.length) : dotSum (powers L) D = mixedValue L D := by
  have := horner_dot L D 0 h
  rw [zero_mul, zero_add] at this
  exact this.symm

theorem ifold_mixed (L D : List ℚ) (h : L.length = D.length) (hne : L ≠ []) :
    ifold (m := Id) (fun x y => ofRes (E.add x y)) (fun x y => ofRes (E.mul x y)) ((powers L).zip D) = pure (mixedValue L D) := by
  rw [ifold_exact, ← dot_mixed L D h]; rfl
  intro h0
  have := congrArg List.length h0
  simp [powers_length] at this
  rcases this with h1 | h1
  · exact hne h1
  · apply hne; rw [h1] at h; simpa using h

/-- C24: for vectors of the same non-zero length, `L⊥D` is the mixed radix value of the digits `D`. -/
theorem C24_decode (uk : List ℚ → Kind) (k k' : Kind) (L D : List ℚ) (h : L.length = D.length) (hne : L ≠ []) :
    decode uk E (.arr k ⟨[L.length], L⟩) (.arr k' ⟨[D.length], D⟩) = pure (.scalar (mixedValue L D)) := by
  unfold decode
  simp only [toArrayVal, List.getLast?_singleton, List.head?_cons, h, ne_eq, not_true_eq_false, if_false, ofRes_ok, pure_bind]
  have hp : powerRows E L ([D.length].getLastD 0) = .ok (powers L) := by
    have hpos : 0 < L.length := by cases L <;> simp at hne ⊢
    simp only [powerRows, List.getLastD_cons, List.getLastD_nil, ← h]
    rw [Nat.div_self hpos]
    rw [forLoop_ok (g := fun i => powers ((L.drop (i * L.length)).take L.length)) _ (fun k _ => powerRow_eq _)]
    simp [bind, Except.bind, pure, Except.pure, List.range_one]
  rw [hp, ofRes_ok, pure_bind]
  have := C28_inner_vectors (m := Id) uk (fun x y => ofRes (E.add x y)) (fun x y => ofRes (E.mul x y)) (uk (powers L)) k' (powers L) D (by rw [powers_length, h])
  rw [powers_length, h] at this
  rw [this, ifold_mixed L D h hne, pure_bind]

/-- C24: for arrays whose adjoining axes agree, `L⊥R` has the shape of an inner product, and every element is the mixed
radix value of a vector along the first axis of `R` in the system given by a vector along the last axis of `L`. -/
theorem C24_decode_arrays (uk : List ℚ → Kind) (k k' : Kind) (a b : Arr ℚ) (ha : a.WF) (hb : b.WF)
    (ls rs : List Nat) (n : Nat) (has : a.shape = ls ++ [n]) (hbs : b.shape = n :: rs) (hne : ls ++ rs ≠ []) (hn : n ≠ 0) :
    decode uk E (.arr k a) (.arr k' b) = pure (
      let d := (allIdx (ls ++ rs)).map (fun idx => mixedValue (a.line ls.length (idx.take ls.length)) (b.line 0 (idx.drop ls.length)))
      .arr (uk d) ⟨ls ++ rs, d⟩) := by
  unfold decode
  have h1 : a.shape.getLast? = some n := by rw [has]; simp
  have h2 : b.shape.head? = some n := by rw [hbs]; rfl
  have h3 : a.shape.getLastD 0 = n := by rw [has]; simp
  simp only [toArrayVal, h1, h2, ne_eq, not_true_eq_false, if_false, ofRes_ok, pure_bind, h3]
  obtain ⟨p, hp, hpl, hline⟩ := powerRows_spec a ha ls n has hn
  rw [hp, ofRes_ok, pure_bind]
  rw [C28_inner (m := Id) uk _ _ (uk p) k' ⟨a.shape, p⟩ b (by show p.length = _; rw [hpl]; exact ha) hb ls rs n has hbs hne]
  have : (allIdx (ls ++ rs)).mapM (fun idx =>
        ifold (m := Id) (fun x y => ofRes (E.add x y)) (fun x y => ofRes (E.mul x y))
          (((⟨a.shape, p⟩ : Arr ℚ).line ls.length (idx.take ls.length)).zip (b.line 0 (idx.drop ls.length)))) =
      (allIdx (ls ++ rs)).mapM (fun idx => (pure (mixedValue (a.line ls.length (idx.take ls.length)) (b.line 0 (idx.drop ls.length))) : ExceptT Fail Id ℚ)) := by
    apply mapM_congr'
    intro idx hi
    have hib := mem_allIdx.1 hi
    have hlen := hib.length_eq
    have ht : (idx.take ls.length).length = ls.length := by
      rw [List.length_take, hlen, List.length_append]; omega
    rw [← List.take_append_drop ls.length idx] at hib
    obtain ⟨hia, hic⟩ := (InB_append ht).1 hib
    rw [hline _ hia]
    have hal : (a.line ls.length (idx.take ls.length)).length = n := by
      rw [line_last a ha ls n has _ hia, List.length_take, List.length_drop]
      have hd : a.data.length = size ls * n := by rw [ha, has, size_append]; simp [size]
      have := flat_lt hia
      have : flat ls (idx.take ls.length) * n + n ≤ size ls * n := by
        calc _ = (flat ls (idx.take ls.length) + 1) * n := by ring
          _ ≤ _ := Nat.mul_le_mul_right _ this
      omega
    have hbl : (b.line 0 (idx.drop ls.length)).length = n := by
      unfold Arr.line
      have hsn : b.shape.getD 0 0 = n := by simp [hbs]
      rw [hsn]
      have := congrArg List.length (filterMap_all_some (List.range n) (fun i => b.get? ((idx.drop ls.length).insertIdx 0 i)) ?_)
      · simpa using this
      intro i hi
      apply Arr.get?_isSome hb
      rw [hbs, List.insertIdx_zero]
      exact ⟨by simpa using hi, hic⟩
    exact ifold_mixed _ _ (by rw [hal, hbl]) (by intro h0; rw [h0] at hal; simp at hal; omega)
  rw [this, mapM_pure', pure_bind]

/-- C24: a vector `L` of length 1 in the last axis (for instance a scalar) is repeated. -/
theorem C24_decode_scalar (uk : List ℚ → Kind) (k' : Kind) (x : ℚ) (D : List ℚ) (hne : D ≠ []) :
    decode uk E (.scalar x) (.arr k' ⟨[D.length], D⟩) = pure (.scalar (mixedValue (List.replicate D.length x) D)) := by
  have h1 := C24_decode uk (uk [x]) k' (List.replicate D.length x) D (by simp) (by
    intro h; have := congrArg List.length h; simp at this; exact hne this)
  rw [← h1]
  unfold decode
  simp only [toArrayVal, List.getLast?_singleton, List.head?_cons, List.length_replicate, ne_eq, not_true_eq_false, if_false]
  by_cases h2 : D.length = 1
  · rw [h2]; rfl
  · rw [if_neg h2]
    obtain ⟨r, hr, hwr, hsr, hg⟩ := extendAxis_spec D.length 0 (⟨[1], [x]⟩ : Arr ℚ) rfl (by simp) rfl
    have hrr : r = ⟨[D.length], List.replicate D.length x⟩ := by
      apply Arr.ext_get hwr (by simp [Arr.WF, size]) hsr
      intro idx hi
      rw [(hg idx hi).2]
      have hi' := hi
      rw [hsr] at hi'
      match idx, hi' with
      | [i], h =>
        have hlt : i < D.length := h.1
        simp [Arr.get?, InB, flat, size, hlt]
    simp only [extendAxisD, List.length_singleton, Nat.sub_self]
    rw [if_pos (show ¬ 1 = D.length from fun h => h2 h.symm), if_pos trivial, hr, hrr]
    rfl

/-- C24: adjoining axes of different lengths, none of them 1, are rejected. -/
theorem C24_decode_mismatch {α} (uk : List α → Kind) (o : EncOps α) (k k' : Kind) (a b : Arr α) (ls rs : List Nat) (n n' : Nat)
    (has : a.shape = ls ++ [n]) (hbs : b.shape = n' :: rs) (h : n ≠ n') (h1 : n ≠ 1) (h2 : n' ≠ 1) :
    decode uk o (.arr k a) (.arr k' b) = throw .err := by
  unfold decode
  simp only [toArrayVal, has, hbs, List.getLast?_append, List.getLast?_singleton, Option.some_or, List.head?_cons,
    if_pos (show n ≠ n' from h), if_neg h1, if_neg h2]
  rfl

/-- C24: `L⊤r` for positive radices: as many digits as radices, every digit in [0, radix); the digits represent `r` modulo
the product of the radices, and `r` itself if 0≤r<×/L. -/
theorem C24_encode (uk : List ℚ → Kind) (k : Kind) (L : List ℚ) (r : ℚ) (hne : L ≠ []) (hL : ∀ l ∈ L, 0 < l) :
    ∃ kz Z, encode uk E (.arr k ⟨[L.length], L⟩) (.scalar r) = .ok (.arr kz ⟨[L.length], Z⟩) ∧ Z.length = L.length ∧
      (∀ (i : Nat) l z, L[i]? = some l → Z[i]? = some z → 0 ≤ z ∧ z < l) ∧
      (∃ c : ℤ, mixedValue L Z + c * L.prod = r) ∧
      (0 ≤ r → r < L.prod → mixedValue L Z = r) := by
  have hnz : ∀ l ∈ L, l ≠ 0 := fun l hl => ne_of_gt (hL l hl)
  refine ⟨uk (digits L r), digits L r, ?_, digits_length L r, ?_, ?_, ?_⟩
  · simp only [encode, List.length_singleton, if_true, encodeVecScalar_eq, bind, Except.bind, pure, Except.pure, digits_length]
  · clear hne hnz
    induction L with
    | nil => intro i l z h; simp at h
    | cons x L ih =>
      intro i l z h1 h2
      cases i with
      | zero =>
        simp only [List.getElem?_cons_zero, Option.some.injEq, digits] at h1 h2
        subst h1; rw [← h2]; exact qmod_bounds (hL _ (by simp)) _
      | succ i =>
        rw [List.getElem?_cons_succ] at h1
        simp only [digits, List.getElem?_cons_succ] at h2
        exact ih (fun l hl => hL l (by simp [hl])) i l z h1 h2
  · have h1 := horner_digits L r hnz
    rw [horner_dot _ _ _ (digits_length L r).symm, dot_mixed _ _ (digits_length L r).symm] at h1
    cases L with
    | nil => exact absurd rfl hne
    | cons x L =>
      obtain ⟨c, hc⟩ := carry_int x L r
      exact ⟨c, by rw [hc] at h1; rw [add_comm]; exact h1⟩
  · intro h0 h1
    have h2 := horner_digits L r hnz
    rw [carry_zero L r hne hL h0 h1] at h2
    exact h2

/-- C24: with integer radices the digits of an integer are integers. -/
theorem C24_encode_int (L : List ℤ) (r : ℤ) :
    ∃ Z : List ℤ, encodeVecScalar E (L.map (fun (x : ℤ) => (x : ℚ))) r = .ok (Z.map (fun (x : ℤ) => (x : ℚ))) := by
  rw [encodeVecScalar_eq]
  have hc : ∀ L : List ℚ, ∃ c : ℤ, carry L r = c := by
    intro L; cases L with
    | nil => exact ⟨r, rfl⟩
    | cons x L => exact carry_int x L r
  induction L with
  | nil => exact ⟨[], rfl⟩
  | cons x L ih =>
    obtain ⟨Z, hZ⟩ := ih
    obtain ⟨c, hc⟩ := hc (L.map (fun (x : ℤ) => (x : ℚ)))
    simp only [Except.ok.injEq] at hZ ⊢
    by_cases h : (x : ℚ) = 0
    · refine ⟨c :: Z, ?_⟩
      simp only [List.map_cons, digits, hZ, qmod, if_pos h, hc]
    · refine ⟨(c - x * ⌊carry (L.map (fun (x : ℤ) => (x : ℚ))) r / x⌋) :: Z, ?_⟩
      simp only [List.map_cons, digits, hZ, qmod, if_neg h]
      congr 1
      rw [hc]; push_cast; rfl

/-- C24: a leading radix 0 receives the whole quotient: the digits represent `r` itself, whatever its size and sign, and the
other digits are those of the encoding without the leading radix. -/
theorem C24_zero_lead (ls : List ℚ) (r : ℚ) (hL : ∀ l ∈ ls, 0 < l) :
    ∃ q Z, encodeVecScalar E (0 :: ls) r = .ok (q :: Z) ∧ encodeVecScalar E ls r = .ok Z ∧ mixedValue (0 :: ls) (q :: Z) = r ∧
      (ls ≠ [] → ∃ c : ℤ, q = c) := by
  refine ⟨carry ls r, digits ls r, ?_, encodeVecScalar_eq _ _, ?_, ?_⟩
  · rw [encodeVecScalar_eq]; simp [digits, qmod]
  · have := horner_zero_lead ls r (fun l hl => ne_of_gt (hL l hl))
    simpa [digits, qmod, mixedValue, hornerFrom] using this
  · intro h
    cases ls with
    | nil => exact absurd rfl h
    | cons x L => exact carry_int x L r

/-- C24: `L⊥L⊤r` is `r` for positive radices and 0≤r<×/L. -/
theorem C24_roundtrip (uk : List ℚ → Kind) (k : Kind) (L : List ℚ) (r : ℚ) (hne : L ≠ []) (hL : ∀ l ∈ L, 0 < l)
    (h0 : 0 ≤ r) (h1 : r < L.prod) :
    (do let Z ← ofRes (encode uk E (.arr k ⟨[L.length], L⟩) (.scalar r))
        decode uk E (.arr k ⟨[L.length], L⟩) Z) = pure (.scalar r) := by
  obtain ⟨kz, Z, he, hz, _, _, hv⟩ := C24_encode uk k L r hne hL
  rw [he, ofRes_ok, pure_bind]
  have := C24_decode uk k kz L Z hz.symm hne
  rw [hz] at this
  rw [this, hv h0 h1]

theorem mixed_range (L D : List ℤ) (hlen : L.length = D.length)
    (hD : ∀ (i : Nat) l d, L[i]? = some l → D[i]? = some d → 0 ≤ d ∧ d < l) :
    0 ≤ dotSum (powers (L.map (fun (x : ℤ) => (x : ℚ)))) (D.map (fun (x : ℤ) => (x : ℚ))) ∧
    dotSum (powers (L.map (fun (x : ℤ) => (x : ℚ)))) (D.map (fun (x : ℤ) => (x : ℚ))) < (L.map (fun (x : ℤ) => (x : ℚ))).prod ∧
    digits (L.map (fun (x : ℤ) => (x : ℚ))) (dotSum (powers (L.map (fun (x : ℤ) => (x : ℚ)))) (D.map (fun (x : ℤ) => (x : ℚ)))) =
      D.map (fun (x : ℤ) => (x : ℚ)) := by
  induction L generalizing D with
  | nil => cases D with
    | nil => simp [dotSum, powers, digits]
    | cons d D => simp at hlen
  | cons l L ih =>
    cases D with
    | nil => simp at hlen
    | cons d D =>
      obtain ⟨i0, i1, i2⟩ := ih D (by simpa using hlen) (fun i l d h1 h2 => hD (i + 1) l d (by simpa using h1) (by simpa using h2))
      obtain ⟨hd0, hd1⟩ := hD 0 l d rfl rfl
      have hpos : ∀ x ∈ L, (0 : ℤ) < x := by
        intro x hx
        obtain ⟨i, hi⟩ := List.getElem?_of_mem hx
        have hlt : i < D.length := by
          have := (List.getElem?_eq_some_iff.1 hi).1
          simp at hlen; omega
        obtain ⟨h1, h2⟩ := hD (i + 1) x D[i] (by simpa using hi) (by simp [hlt])
        omega
      set P := (L.map (fun (x : ℤ) => (x : ℚ))).prod with hP
      have hPp : 0 < P := prod_pos' L hpos
      set v := dotSum (powers (L.map (fun (x : ℤ) => (x : ℚ)))) (D.map (fun (x : ℤ) => (x : ℚ))) with hv
      have e : dotSum (powers ((l :: L).map (fun (x : ℤ) => (x : ℚ)))) ((d :: D).map (fun (x : ℤ) => (x : ℚ))) = v - ((-d : ℤ) : ℚ) * P := by
        simp only [List.map_cons, powers, dotSum, List.zip_cons_cons, List.sum_cons, hv, hP]
        push_cast; ring
      have hd0' : (0 : ℚ) ≤ d := by exact_mod_cast hd0
      have hd1' : (d : ℚ) + 1 ≤ l := by exact_mod_cast hd1
      rw [e]
      obtain ⟨c1, c2⟩ := carry_shift L v (-d) (fun x hx => ne_of_gt (hpos x hx))
      refine ⟨?_, ?_, ?_⟩
      · push_cast; nlinarith [mul_nonneg hd0' hPp.le]
      · rw [List.map_cons, List.prod_cons, ← hP]; push_cast
        nlinarith [mul_le_mul_of_nonneg_right hd1' hPp.le]
      · simp only [List.map_cons, digits]
        rw [c1, c2, i2]
        congr 1
        have hcz : carry (L.map (fun (x : ℤ) => (x : ℚ))) v = 0 := by
          cases hLL : L with
          | nil =>
            have : D = [] := by simp [hLL] at hlen; exact hlen
            simp [hv, hLL, this, carry, powers, dotSum]
          | cons x xs =>
            rw [← hLL]
            exact carry_zero _ _ (by simp [hLL]) (by
              intro q hq
              obtain ⟨y, hy, rfl⟩ := List.mem_map.1 hq
              exact_mod_cast hpos y hy) i0 i1
        rw [hcz]
        have hl0 : (0 : ℚ) < l := by linarith
        have hfl : ⌊(0 - ((-d : ℤ) : ℚ)) / l⌋ = 0 := by
          rw [Int.floor_eq_iff]
          constructor
          · push_cast; rw [zero_sub, neg_neg]; positivity
          · push_cast; rw [zero_sub, neg_neg, zero_add, div_lt_one hl0]; linarith
        simp only [qmod, if_neg (ne_of_gt hl0), hfl]
        push_cast; ring

/-- C24: valid digits are unique: `L⊤L⊥D` is `D` for integer radices and integer digits in [0, radix). -/
theorem C24_digits_unique (L D : List ℤ) (hlen : L.length = D.length)
    (hD : ∀ (i : Nat) l d, L[i]? = some l → D[i]? = some d → 0 ≤ d ∧ d < l) :
    encodeVecScalar E (L.map (fun (x : ℤ) => (x : ℚ)))
      (mixedValue (L.map (fun (x : ℤ) => (x : ℚ))) (D.map (fun (x : ℤ) => (x : ℚ)))) = .ok (D.map (fun (x : ℤ) => (x : ℚ))) := by
  rw [encodeVecScalar_eq, ← dot_mixed _ _ (by simpa using hlen), (mixed_range L D hlen hD).2.2]

/-- C24: `L⊤R` for arrays `L` (integer radices along the first axis, all but the first of each column positive) and `R`: the
result has shape (⍴L),⍴R, and the vector along its first axis at (column of L, element of R) is the encoding of that element
by that column. -/
theorem C24_encode_arrays (uk : List ℚ → Kind) (a : Arr ℤ) (ha : a.WF) (n : Nat) (ls : List Nat) (hs : a.shape = (n + 1) :: ls)
    (rs : List Nat) (rd : List ℚ) (hr : rd.length = size rs)
    (hL : ∀ i j x, i ≠ 0 → a.get? (i :: j) = some x → 0 < x) :
    ∃ kz z, encodeArray uk E ⟨a.shape, a.data.map (fun (x : ℤ) => (x : ℚ))⟩ rs rd = .ok (.arr kz z) ∧ z.WF ∧
      z.shape = a.shape ++ rs ∧
      ∀ jl jr r, InB ls jl → InB rs jr → (⟨rs, rd⟩ : Arr ℚ).get? jr = some r →
        encodeVecScalar E ((a.line 0 jl).map (fun (x : ℤ) => (x : ℚ))) r = .ok (z.line 0 (jl ++ jr)) := by
  have hNL : (if ls = [] then 1 else prod ls) = size ls := by
    split
    · next h => rw [h]; rfl
    · next h => exact prod_eq_size h
  have hNN : (if ls ++ rs = [] then 1 else prod (ls ++ rs)) = size (ls ++ rs) := by
    split
    · next h => rw [h]; rfl
    · next h => exact prod_eq_size h
  have hd : a.data.length = (n + 1) * size ls := by rw [ha, hs]; rfl
  let col : Nat → List ℤ := fun i => a.line 0 (unflat ls i)
  have hline : ∀ jl, InB ls jl → ∀ k, k < n + 1 → a.get? (k :: jl) = a.data[k * size ls + flat ls jl]? := by
    intro jl hj k hk
    rw [Arr.get?_of_inB (by rw [hs]; exact ⟨hk, hj⟩), hs]; rfl
  have hlsome : ∀ jl, InB ls jl → (a.line 0 jl).map some = (List.range (n + 1)).map (fun k => a.data[k * size ls + flat ls jl]?) := by
    intro jl hj
    unfold Arr.line
    rw [show a.shape.getD 0 0 = n + 1 by rw [hs]; rfl]
    rw [filterMap_all_some]
    · apply List.map_congr_left
      intro k hk
      exact hline jl hj k (by simpa using hk)
    · intro k hk
      exact Arr.get?_isSome ha (by rw [hs]; exact ⟨by simpa using hk, hj⟩)
  have hcollen : ∀ jl, InB ls jl → (a.line 0 jl).length = n + 1 := by
    intro jl hj; simpa using congrArg List.length (hlsome jl hj)
  have hrad : ∀ i, i < size ls → forLoop (fun k => sliceAt (a.data.map (fun (x : ℤ) => (x : ℚ))) (k * size ls + i)) (n + 1) 0 =
      .ok ((col i).map (fun (x : ℤ) => (x : ℚ))) := by
    intro i hi
    have hb := unflat_inB hi
    obtain ⟨d, h1, h2, h3⟩ := forLoop_ex (body := fun k => sliceAt (a.data.map (fun (x : ℤ) => (x : ℚ))) (k * size ls + i)) (n + 1) (by
      intro k hk
      have hlt : k * size ls + i < a.data.length := by
        have : k * size ls + size ls ≤ (n + 1) * size ls := by
          calc _ = (k + 1) * size ls := by ring
            _ ≤ _ := Nat.mul_le_mul_right _ hk
        omega
      exact ⟨_, sliceAt_ok (by simpa using hlt)⟩)
    rw [h1]
    congr 1
    apply List.ext_getElem?
    intro k
    by_cases hk : k < n + 1
    · obtain ⟨v, e1, e2⟩ := h3 k hk
      rw [e2]
      rw [sliceAt_eq_ok, List.getElem?_map] at e1
      have h4 := congrArg (fun l => l[k]?) (hlsome _ hb)
      simp only [List.getElem?_map, List.getElem?_range hk, Option.map_some, flat_unflat hi] at h4
      simp only [col, List.getElem?_map]
      cases h5 : (a.line 0 (unflat ls i))[k]? with
      | none => rw [h5] at h4; simp at h4
      | some w =>
        rw [h5] at h4; simp only [Option.map_some, Option.some.injEq] at h4
        rw [← h4] at e1; simpa using e1.symm
    · rw [List.getElem?_eq_none (by omega), List.getElem?_eq_none]
      simp only [col, List.length_map, hcollen _ hb]; omega
  have hpos : ∀ jl, InB ls jl → ∃ l0 t, a.line 0 jl = l0 :: t ∧ ∀ l ∈ t, 0 < l := by
    intro jl hj
    have hl := hcollen jl hj
    cases hc : a.line 0 jl with
    | nil => rw [hc] at hl; simp at hl
    | cons l0 t =>
      refine ⟨l0, t, rfl, ?_⟩
      intro l hlm
      obtain ⟨i, hi⟩ := List.getElem?_of_mem hlm
      have hilt := (List.getElem?_eq_some_iff.1 hi).1
      rw [hc] at hl; simp only [List.length_cons] at hl
      have h4 := congrArg (fun l => l[i + 1]?) (hlsome _ hj)
      simp only [hc, List.getElem?_map, List.getElem?_cons_succ, hi, List.getElem?_range (show i + 1 < n + 1 by omega), Option.map_some, Option.some.injEq] at h4
      exact hL (i + 1) jl l (by omega) (by rw [hline jl hj (i + 1) (by omega)]; exact h4.symm)
  -- the columns
  let D : Nat → Nat → List ℚ := fun i k => digits ((col i).map (fun (x : ℤ) => (x : ℚ))) (rd.getD k 0)
  have hcols : forLoop (fun i => do
      let rad ← forLoop (fun k => sliceAt (a.data.map (fun (x : ℤ) => (x : ℚ))) (k * size ls + i)) (n + 1) 0
      forLoop (fun k => do let r ← sliceAt rd k; encColumn E rad r) rd.length 0) (size ls) 0 =
      .ok ((List.range (size ls)).map (fun i => (List.range rd.length).map (D i))) := by
    apply forLoop_ok
    intro i hi
    rw [hrad i hi]
    show forLoop _ rd.length 0 = _
    apply forLoop_ok
    intro k hk
    rw [sliceAt_ok hk]
    show encColumn E _ _ = _
    obtain ⟨l0, t, h1, h2⟩ := hpos _ (unflat_inB hi)
    simp only [D, col, h1, getD_eq_getElem rd 0 hk]
    exact encColumn_eq l0 t _ h2
  have hDlen : ∀ i k, i < size ls → (D i k).length = n + 1 := by
    intro i k hi
    simp only [D, digits_length, List.length_map, col, hcollen _ (unflat_inB hi)]
  have hparts : ∀ p ∈ (List.range (size ls)).map (fun i => (List.range rd.length).map (D i)), p.length = size rs := by
    intro p hp; obtain ⟨i, _, rfl⟩ := List.mem_map.1 hp; simp [hr]
  let cols := ((List.range (size ls)).map (fun i => (List.range rd.length).map (D i))).flatten
  have hcl : cols.length = size ls * size rs := by
    rw [flatten_length' _ _ hparts]; simp
  have hcg : ∀ jl jr, InB ls jl → InB rs jr → cols[flat (ls ++ rs) (jl ++ jr)]? = some (D (flat ls jl) (flat rs jr)) := by
    intro jl jr h1 h2
    have f1 := flat_lt h1
    have f2 := flat_lt h2
    rw [flat_append' h1.length_eq, flatten_get _ _ hparts _ _ f2, List.getElem?_map, List.getElem?_range f1]
    simp only [Option.map_some, Option.bind_some]
    rw [List.getElem?_map, List.getElem?_range (by omega)]; rfl
  let g : List Nat → ℚ := fun idx => (cols.getD (flat (ls ++ rs) idx.tail) []).getD (idx.headD 0) 0
  have hsplit : ∀ t, InB (ls ++ rs) t → ∃ jl jr, t = jl ++ jr ∧ InB ls jl ∧ InB rs jr := by
    intro t ht
    have hlen := ht.length_eq
    have htl : (t.take ls.length).length = ls.length := by rw [List.length_take, hlen, List.length_append]; omega
    rw [← List.take_append_drop ls.length t] at ht
    exact ⟨_, _, (List.take_append_drop ls.length t).symm, (InB_append htl).1 ht⟩
  have hcover := applySets_cover (t := a.shape ++ rs) (List.replicate (size (a.shape ++ rs)) (none : Option ℚ)) (by simp)
    (cols.zipIdx.flatMap (fun p => p.1.zipIdx.map (fun q => (q.2 * size (ls ++ rs) + p.2, some q.1)))) (fun idx => some (g idx)) (by
      intro w hw
      obtain ⟨p, hp, hw⟩ := List.mem_flatMap.1 hw
      obtain ⟨q, hq, rfl⟩ := List.mem_map.1 hw
      obtain ⟨x, off⟩ := p
      obtain ⟨y, j⟩ := q
      rw [List.mem_zipIdx_iff_getElem?] at hp hq
      simp only at hp hq ⊢
      have hoff : off < size (ls ++ rs) := by
        have := (List.getElem?_eq_some_iff.1 hp).1
        rw [hcl] at this; rw [size_append]; exact this
      obtain ⟨jl, jr, ht, h1, h2⟩ := hsplit _ (unflat_inB hoff)
      have hfo : flat (ls ++ rs) (jl ++ jr) = off := by rw [← ht, flat_unflat hoff]
      have hx : x = D (flat ls jl) (flat rs jr) := by
        have := hcg jl jr h1 h2; rw [hfo, hp] at this; simpa using this
      have hjlt : j < n + 1 := by
        have := (List.getElem?_eq_some_iff.1 hq).1
        rwa [hx, hDlen _ _ (flat_lt h1)] at this
      refine ⟨j :: (jl ++ jr), ?_, ?_⟩
      · rw [hs]; exact ⟨hjlt, (InB_append h1.length_eq).2 ⟨h1, h2⟩⟩
      · rw [hs]
        simp only [List.cons_append, flat, hfo, g, List.tail_cons, List.headD_cons, List.getD_eq_getElem?_getD, hp, Option.getD_some, hq])
    (by
      intro idx hi
      rw [hs] at hi
      match idx, hi with
      | j :: t, ⟨hj, ht⟩ =>
        obtain ⟨jl, jr, rfl, h1, h2⟩ := hsplit t ht
        have hc := hcg jl jr h1 h2
        apply List.mem_flatMap.2
        refine ⟨(D (flat ls jl) (flat rs jr), flat (ls ++ rs) (jl ++ jr)), List.mem_zipIdx_iff_getElem?.2 hc, ?_⟩
        apply List.mem_map.2
        have hlt : j < (D (flat ls jl) (flat rs jr)).length := by rw [hDlen _ _ (flat_lt h1)]; exact hj
        refine ⟨((D (flat ls jl) (flat rs jr))[j], j), List.mem_zipIdx_iff_getElem?.2 (by simp [hlt]), ?_⟩
        rw [hs]
        simp only [List.cons_append, flat, g, List.tail_cons, List.headD_cons, List.getD_eq_getElem?_getD, hc, Option.getD_some,
          List.getElem?_eq_getElem hlt])
  refine ⟨uk ((allIdx (a.shape ++ rs)).map g), ⟨a.shape ++ rs, (allIdx (a.shape ++ rs)).map g⟩, ?_, ?_, rfl, ?_⟩
  · unfold encodeArray
    simp only [hs, hNL, hNN]
    rw [hcols]
    simp only [bind, Except.bind]
    have hpr : prod ((n + 1) :: ls ++ rs) = size (a.shape ++ rs) := by rw [hs]; exact prod_eq_size (by simp)
    rw [hpr]
    have hcover' := hcover
    simp only [cols] at hcover'
    rw [hcover', show (allIdx (a.shape ++ rs)).map (fun idx => some (g idx)) = ((allIdx (a.shape ++ rs)).map g).map some by simp, noNil_map_some]
    rw [hs]; rfl
  · show List.length _ = _
    rw [List.length_map, allIdx_length]
  · intro jl jr r h1 h2 hrr
    rw [encodeVecScalar_eq]
    congr 1
    have hw : (⟨a.shape ++ rs, (allIdx (a.shape ++ rs)).map g⟩ : Arr ℚ).WF := by
      show List.length _ = _
      rw [List.length_map, allIdx_length]
    have hrk : rd.getD (flat rs jr) 0 = r := by
      rw [Arr.get?_of_inB h2] at hrr
      simp only at hrr
      rw [List.getD_eq_getElem?_getD, hrr]; rfl
    have hDr : D (flat ls jl) (flat rs jr) = digits ((a.line 0 jl).map (fun (x : ℤ) => (x : ℚ))) r := by
      simp only [D, col, unflat_flat h1, hrk]
    rw [← hDr]
    have hsome : ((⟨a.shape ++ rs, (allIdx (a.shape ++ rs)).map g⟩ : Arr ℚ).line 0 (jl ++ jr)).map some = (D (flat ls jl) (flat rs jr)).map some := by
      unfold Arr.line
      have hz : (a.shape ++ rs).getD 0 0 = n + 1 := by rw [hs]; rfl
      simp only [hz]
      have hib : ∀ k, k < n + 1 → InB (a.shape ++ rs) (k :: (jl ++ jr)) := by
        intro k hk; rw [hs]; exact ⟨hk, (InB_append h1.length_eq).2 ⟨h1, h2⟩⟩
      rw [filterMap_all_some]
      · apply List.ext_getElem?
        intro k
        rw [List.getElem?_map, List.getElem?_map]
        by_cases hk : k < n + 1
        · rw [List.getElem?_range hk]
          simp only [Option.map_some, List.insertIdx_zero]
          rw [Arr.get?_of_inB (hib k hk)]
          simp only [List.getElem?_map, allIdx_getElem? (hib k hk), Option.map_some]
          simp only [g, List.tail_cons, List.headD_cons, List.getD_eq_getElem?_getD, hcg jl jr h1 h2, Option.getD_some]
          rw [List.getElem?_eq_getElem (by rw [hDlen _ _ (flat_lt h1)]; exact hk)]
          rfl
        · rw [List.getElem?_eq_none (by simpa using hk), List.getElem?_eq_none (by rw [hDlen _ _ (flat_lt h1)]; omega)]; rfl
      · intro k hk
        simp only [List.insertIdx_zero]
        exact Arr.get?_isSome hw (hib k (by simpa using hk))
    have := congrArg (List.filterMap id) hsome
    simpa [List.filterMap_map] using this.symm

/-! ### Concrete cases -/

/-- `24 60 60⊤3661` is `1 1 1` and `24 60 60⊥1 1 1` is 3661. -/
example : mixedValue [24, 60, 60] [1, 1, 1] = 3661 := by norm_num [mixedValue]
example : encodeVecScalar E ([24, 60, 60] : List ℚ) 3661 = .ok [1, 1, 1] := by
  have h := C24_digits_unique [24, 60, 60] [1, 1, 1] rfl (by
    intro i l d h1 h2
    match i with
    | 0 => simp at h1 h2; omega
    | 1 => simp at h1 h2; omega
    | 2 => simp at h1 h2; omega
    | (i + 3) => simp at h1)
  norm_num [mixedValue] at h
  exact h
/-- the hypotheses of `C24_roundtrip` -/
example : ([24, 60, 60] : List ℚ) ≠ [] ∧ (∀ l ∈ ([24, 60, 60] : List ℚ), 0 < l) ∧ (0 : ℚ) ≤ 3661 ∧ (3661 : ℚ) < ([24, 60, 60] : List ℚ).prod := by
  refine ⟨by simp, by norm_num, by norm_num, by norm_num⟩
/-- the hypotheses of `C24_encode_arrays`: `(2 2⍴0 0 7 10)⊤R` -/
example : ∀ i j x, i ≠ 0 → (⟨[2, 2], [0, 0, 7, 10]⟩ : Arr ℤ).get? (i :: j) = some x → 0 < x := by
  intro i j x hi h
  unfold Arr.get? at h
  match i, j with
  | 0, _ => exact absurd rfl hi
  | 1, [0] => simp [InB, flat, size] at h; omega
  | 1, [1] => simp [InB, flat, size] at h; omega
  | 1, [] => simp [InB] at h
  | 1, [(k+2)] => simp [InB] at h
  | 1, _ :: _ :: _ => simp [InB] at h
  | (i+2), j => cases j <;> simp [InB] at h <;> omega

end Iv

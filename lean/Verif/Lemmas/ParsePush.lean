import Verif.Lemmas.ParsePieces
/-
Items that are put on the stack, without the loop over the tokens (C46).
-/
namespace Iv
variable {D : Type}

/-! ### The leftmost item stays on the stack -/

theorem head_set_erase (ls : List (Item D)) (i j : Nat) (x : Item D) : ((ls.set (i + 1) x).eraseIdx (j + 1)).head? = ls.head? := by
  cases ls <;> simp

theorem head_erase (ls : List (Item D)) (j : Nat) : (ls.eraseIdx (j + 1)).head? = ls.head? := by
  cases ls <;> simp

theorem mopReduce_head (n i : Nat) (ls : List (Item D)) (red : Bool) (r : Bool × List (Item D))
    (h : mopReduce n (i + 1) ls red = .ok r) : r.2.head? = ls.head? := by
  induction n generalizing i ls red with
  | zero => simp [mopReduce] at h; simp [← h]
  | succ n ih =>
    rw [mopReduce.eq_def] at h
    simp only at h
    split at h
    · split at h
      · simp at h; simp [← h]
      · split at h
        · simp at h; simp [← h]
        · simp only [bind, Except.bind] at h
          split at h
          · simp at h
          · rw [ih _ _ _ h, head_set_erase]
    · simp at h; simp [← h]

theorem dopReduce_head (i : Nat) (ls : List (Item D)) (r : Bool × List (Item D)) (h : dopReduce (i + 1) ls = .ok r) :
    r.2.head? = ls.head? := by
  rw [dopReduce.eq_def] at h
  split at h
  · split at h
    · simp at h; simp [← h]
    · split at h
      · simp at h; simp [← h]
      · simp only [bind, Except.bind] at h
        split at h
        · simp at h
        · simp only [Except.ok.injEq] at h
          rw [← h]
          simp only
          rw [head_erase, head_set_erase]
  · simp at h; simp [← h]

theorem opRound_head (ls : List (Item D)) (r : Bool × List (Item D)) (h : opRound false ls = .ok r) : r.2.head? = ls.head? := by
  unfold opRound at h
  simp only [Bool.false_eq_true, if_false, bind, Except.bind] at h
  cases h1 : mopReduce ls.length 1 ls false with
  | error e => simp [h1] at h
  | ok r1 =>
    have e1 := mopReduce_head _ 0 _ _ _ h1
    simp only [h1] at h
    cases h2 : dopReduce 1 r1.2 with
    | error e => simp [h2] at h
    | ok r2 =>
      have e2 := dopReduce_head 0 _ _ h2
      simp only [h2, Except.ok.injEq] at h
      rw [← h]
      simp only
      rw [e2, e1]

theorem resolveOperators_head (n : Nat) (ls ls' : List (Item D)) (h : resolveOperators false n ls = .ok ls') : ls'.head? = ls.head? := by
  induction n generalizing ls with
  | zero => simp [resolveOperators] at h; simp [h]
  | succ n ih =>
    simp only [resolveOperators, bind, Except.bind] at h
    cases h1 : opRound false ls with
    | error e => simp [h1] at h
    | ok r =>
      have e1 := opRound_head _ _ h1
      simp only [h1] at h
      split at h
      · rw [ih _ h, e1]
      · simp at h; rw [← h, e1]

theorem getLast_skip (a b : Item D) (rest : List (Item D)) (h : rest ≠ []) : (a :: rest).getLast? = (b :: rest).getLast? := by
  cases rest with
  | nil => exact absurd rfl h
  | cons r rs => rw [List.getLast?_cons_cons, List.getLast?_cons_cons]

theorem getLast_tail (a : Item D) (rest : List (Item D)) (h : rest ≠ []) : (a :: rest).getLast? = rest.getLast? := by
  cases rest with
  | nil => exact absurd rfl h
  | cons r rs => rw [List.getLast?_cons_cons]

theorem reducefA_last (st : List (Item D)) (r : Bool × List (Item D)) (h : reducefA false st = .ok r) : r.2.getLast? = st.getLast? := by
  unfold reducefA at h
  split at h
  · rename_i a f rest
    split at h
    · rename_i hc
      have hne : rest ≠ [] := by
        rintro rfl
        simp [fALeft] at hc
      simp only [bind, Except.bind] at h
      split at h
      · simp at h
      · simp only [Except.ok.injEq] at h
        rw [← h]
        rw [getLast_tail a _ (by simp)]
        exact getLast_skip _ _ _ hne
    · simp at h; simp [← h]
  · simp at h; simp [← h]

theorem reduceAfA_last (st : List (Item D)) (r : Bool × List (Item D)) (h : reduceAfA false st = .ok r) : r.2.getLast? = st.getLast? := by
  unfold reduceAfA at h
  split at h
  · rename_i a f l rest
    split at h
    · simp at h; simp [← h]
    · rename_i y x hl
      have hne : rest ≠ [] := by
        rintro rfl
        simp [AfALeft] at hl
      split at h
      · simp at h; simp [← h]
      · split at h
        · simp only [bind, Except.bind] at h
          split at h
          · simp at h
          · simp only [Except.ok.injEq] at h
            rw [← h]
            rw [getLast_tail a _ (by simp), getLast_tail f _ (by simp)]
            exact getLast_skip _ _ _ hne
        · simp at h; simp [← h]
  · simp at h; simp [← h]

theorem resolveArrays_last (n : Nat) (st st' : List (Item D)) (h : resolveArrays false n st = .ok st') : st'.getLast? = st.getLast? := by
  induction n generalizing st with
  | zero => simp [resolveArrays] at h; simp [h]
  | succ n ih =>
    simp only [resolveArrays, bind, Except.bind] at h
    cases h1 : reducefA false st with
    | error e => simp [h1] at h
    | ok r1 =>
      have e1 := reducefA_last _ _ h1
      simp only [h1] at h
      cases h2 : reduceAfA false r1.2 with
      | error e => simp [h2] at h
      | ok r2 =>
        have e2 := reduceAfA_last _ _ h2
        simp only [h2] at h
        split at h
        · rw [ih _ h, e2, e1]
        · simp at h; rw [← h, e2, e1]

theorem reduceff_last (st st' : List (Item D)) (h : reduceff false st = some st') : st'.getLast? = st.getLast? := by
  match st, h with
  | [], h => simp [reduceff] at h
  | [_], h => simp [reduceff] at h
  | [r0, r1], h => simp [reduceff] at h
  | r0 :: r1 :: x :: xs, h =>
    unfold reduceff at h
    rw [getLast_tail r0 _ (by simp)]
    by_cases hc : r0.cls = .verb ∧ r1.cls = .verb ∧ ((x :: xs = [] ∧ (false : Bool) = true) ∨ x.cls ≠ .conj)
    · simp only [if_pos hc] at h
      split at h
      · simp only [Option.some.injEq] at h
        rw [← h]; exact getLast_skip _ _ _ (by simp)
      · simp only [Option.some.injEq] at h
        rw [← h]; exact getLast_skip _ _ _ (by simp)
    · simp only [if_neg hc] at h
      simp at h

theorem reduceTrains_last (n : Nat) (st : List (Item D)) : (reduceTrains false n st).getLast? = st.getLast? := by
  induction n generalizing st with
  | zero => rfl
  | succ n ih =>
    rw [reduceTrains]
    split
    · rfl
    · rename_i st' h
      rw [ih, reduceff_last _ _ h]

/-- the leftmost item is not changed before the end of the statement is reached -/
theorem parseReduce_keeps (st : List (Item D)) (i : Item D) (hi : i.isSpec = false) (hst : ∀ j, st.getLast? = some j → j.isSpec = false)
    (st' : List (Item D)) (h : parseReduce false (st ++ [i]) = .ok st') : st'.getLast? = some i := by
  unfold parseReduce at h
  rw [List.reverse_append, List.reverse_singleton, List.singleton_append] at h
  simp only [hi, Bool.false_eq_true, if_false, Bool.false_and] at h
  have hb : resolveBrackets (i :: st.reverse) = .ok (i :: st.reverse) := by
    cases hr : st.reverse with
    | nil => rfl
    | cons s rest =>
      have := hst s (by rw [List.getLast?_eq_head?_reverse, hr]; rfl)
      unfold resolveBrackets
      simp only
      unfold Item.isSpec at this
      split <;> simp_all
  simp only [hb, bind, Except.bind] at h
  generalize h1 : resolveOperators false (i :: st.reverse).length (i :: st.reverse) = x at h
  cases x with
  | error e => simp at h
  | ok ls =>
    have e1 := resolveOperators_head _ _ _ h1
    simp only at h
    cases h2 : resolveArrays false ls.length ls.reverse with
    | error e => simp [h2] at h
    | ok ls2 =>
      have e2 := resolveArrays_last _ _ _ h2
      simp only [h2, Except.ok.injEq] at h
      rw [← h]
      unfold resolveFunctions
      simp only [Bool.false_eq_true, if_false]
      rw [reduceTrains_last, e2, List.getLast?_reverse, e1]
      rfl

/-! ### Brackets -/

/-- an index specification waits for the item on its left -/
theorem push_spec (st : List (Item D)) (es : List (Expr D)) :
    parseReduce false (st ++ [⟨.spec es, .adverb⟩]) = .ok (st ++ [⟨.spec es, .adverb⟩]) := by
  unfold parseReduce
  rw [List.reverse_append, List.reverse_singleton, List.singleton_append]
  rfl

/-- an item with its index specification is the same as the resolved item -/
theorem push_resolved (st : List (Item D)) (hst : ∀ j, st.getLast? = some j → j.isSpec = false) (s x i : Item D)
    (hx : x.isSpec = false) (hi : i.isSpec = false) (hr : ∀ rest, resolveBrackets (x :: s :: rest) = .ok (i :: rest)) :
    parseReduce false (st ++ [s] ++ [x]) = parseReduce false (st ++ [i]) := by
  have hb : resolveBrackets (i :: st.reverse) = .ok (i :: st.reverse) := by
    cases hr : st.reverse with
    | nil => rfl
    | cons s rest =>
      have := hst s (by rw [List.getLast?_eq_head?_reverse, hr]; rfl)
      unfold resolveBrackets
      simp only
      unfold Item.isSpec at this
      split <;> simp_all
  have e1 : (st ++ [s] ++ [x]).reverse = x :: s :: st.reverse := by simp
  have e2 : (st ++ [i]).reverse = i :: st.reverse := by simp
  unfold parseReduce
  simp only [e1, e2, hx, hi, Bool.false_eq_true, if_false, hb, hr]

theorem resolve_index (x : Expr D) (hx : isFnE x = false) (es : List (Expr D)) (rest : List (Item D)) :
    resolveBrackets (⟨x, .noun⟩ :: ⟨.spec es, .adverb⟩ :: rest) = .ok (⟨.app (.prim "⌷") (some (.spec es)) x false, .noun⟩ :: rest) := by
  unfold resolveBrackets
  simp only
  split
  · simp [isFnE] at hx
  · simp [isFnE] at hx
  · simp

theorem resolve_axis (s : String) (a : Expr D) (rest : List (Item D)) :
    resolveBrackets (⟨.fn (.prim s), .verb⟩ :: ⟨.spec [a], .adverb⟩ :: rest) =
      .ok (⟨.fn (.der "⍂" (some (.fn (.prim s))) (some a)), .verb⟩ :: rest) := rfl

end Iv

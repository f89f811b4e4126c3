import Verif.Lemmas.ParsePush
/-
An operator with an axis: three items are put on the stack at once (C46).
-/
namespace Iv
variable {D : Type}

/-! ### Reductions at the right end do not look further to the left than needed -/

theorem fA_more {st s : List (Item D)} (c : List (Item D)) (h : reducefA false st = .ok (true, s)) :
    reducefA false (st ++ c) = .ok (true, s ++ c) := by
  match st with
  | [] => simp [reducefA] at h
  | [_] => simp [reducefA] at h
  | [r, f] => simp [reducefA, fALeft] at h
  | r :: f :: t :: rest =>
    simp only [reducefA, List.cons_append] at h ⊢
    by_cases hc : r.cls = .noun ∧ f.cls = .verb ∧ (fALeft false (t :: rest) = .verb ∨ fALeft false (t :: rest) = .adverb)
    · rw [if_pos hc] at h
      have hc' : r.cls = .noun ∧ f.cls = .verb ∧ (fALeft false (t :: (rest ++ c)) = .verb ∨ fALeft false (t :: (rest ++ c)) = .adverb) := hc
      rw [if_pos hc']
      cases hf : f.fn? with
      | error e => simp [hf, bind, Except.bind] at h
      | ok g =>
        simp only [hf, bind, Except.bind, Except.ok.injEq, Prod.mk.injEq, true_and] at h ⊢
        rw [← h]; rfl
    · rw [if_neg hc] at h; simp at h

theorem fA_more_err {st : List (Item D)} (c : List (Item D)) {e : Fail} (h : reducefA false st = .error e) :
    reducefA false (st ++ c) = .error e := by
  match st with
  | [] => simp [reducefA] at h
  | [_] => simp [reducefA] at h
  | [r, f] => simp [reducefA, fALeft] at h
  | r :: f :: t :: rest =>
    simp only [reducefA, List.cons_append] at h ⊢
    by_cases hc : r.cls = .noun ∧ f.cls = .verb ∧ (fALeft false (t :: rest) = .verb ∨ fALeft false (t :: rest) = .adverb)
    · rw [if_pos hc] at h
      have hc' : r.cls = .noun ∧ f.cls = .verb ∧ (fALeft false (t :: (rest ++ c)) = .verb ∨ fALeft false (t :: (rest ++ c)) = .adverb) := hc
      rw [if_pos hc']
      cases hf : f.fn? with
      | error e => simpa [hf, bind, Except.bind] using h
      | ok g => simp [hf, bind, Except.bind] at h
    · rw [if_neg hc] at h; simp at h

theorem AfA_more {st s : List (Item D)} (c : List (Item D)) (h : reduceAfA false st = .ok (true, s)) :
    reduceAfA false (st ++ c) = .ok (true, s ++ c) := by
  match st with
  | [] => simp [reduceAfA] at h
  | [_] => simp [reduceAfA] at h
  | [_, _] => simp [reduceAfA] at h
  | [r, f, l] => simp [reduceAfA, AfALeft] at h
  | [r, f, l, _] => simp [reduceAfA, AfALeft] at h
  | r :: f :: l :: y :: x :: rest =>
    simp only [reduceAfA, List.cons_append, AfALeft] at h ⊢
    by_cases hc : ¬ (l.cls = .noun ∧ f.cls = .verb ∧ r.cls = .noun)
    · rw [if_pos hc] at h; simp at h
    · rw [if_neg hc] at h ⊢
      by_cases hd : (false : Bool) = true ∨ y.cls = .verb ∨ (y.cls = .noun ∧ x.cls ≠ .conj)
      · rw [if_pos hd] at h ⊢
        cases hf : f.fn? with
        | error e => simp [hf, bind, Except.bind] at h
        | ok g =>
          simp only [hf, bind, Except.bind, Except.ok.injEq, Prod.mk.injEq, true_and] at h ⊢
          rw [← h]; rfl
      · rw [if_neg hd] at h; simp at h

theorem AfA_more_err {st : List (Item D)} (c : List (Item D)) {e : Fail} (h : reduceAfA false st = .error e) :
    reduceAfA false (st ++ c) = .error e := by
  match st with
  | [] => simp [reduceAfA] at h
  | [_] => simp [reduceAfA] at h
  | [_, _] => simp [reduceAfA] at h
  | [r, f, l] => simp [reduceAfA, AfALeft] at h
  | [r, f, l, _] => simp [reduceAfA, AfALeft] at h
  | r :: f :: l :: y :: x :: rest =>
    simp only [reduceAfA, List.cons_append, AfALeft] at h ⊢
    by_cases hc : ¬ (l.cls = .noun ∧ f.cls = .verb ∧ r.cls = .noun)
    · rw [if_pos hc] at h; simp at h
    · rw [if_neg hc] at h ⊢
      by_cases hd : (false : Bool) = true ∨ y.cls = .verb ∨ (y.cls = .noun ∧ x.cls ≠ .conj)
      · rw [if_pos hd] at h ⊢
        cases hf : f.fn? with
        | error e => simpa [hf, bind, Except.bind] using h
        | ok g => simp [hf, bind, Except.bind] at h
      · rw [if_neg hd] at h; simp at h

/-- the two results of a reduction of `fA` -/
theorem fA_cases (st : List (Item D)) (last : Bool) : reducefA last st = .ok (false, st) ∨
    ∃ r f rest, st = r :: f :: rest ∧ r.cls = .noun ∧ (fALeft last rest = .verb ∨ fALeft last rest = .adverb) ∧
      reducefA last st = (f.fn? >>= fun g => .ok (true, ⟨.app g none r.e false, .noun⟩ :: rest)) := by
  match st with
  | [] => exact .inl rfl
  | [_] => exact .inl rfl
  | r :: f :: rest =>
    by_cases hc : r.cls = .noun ∧ f.cls = .verb ∧ (fALeft last rest = .verb ∨ fALeft last rest = .adverb)
    · refine .inr ⟨r, f, rest, rfl, hc.1, hc.2.2, ?_⟩
      unfold reducefA
      simp only [if_pos hc]
    · left
      unfold reducefA
      simp only [if_neg hc]

/-- the two results of a reduction of `AfA` -/
theorem AfA_cases (st : List (Item D)) (last : Bool) : reduceAfA last st = .ok (false, st) ∨
    ∃ r f l rest, st = r :: f :: l :: rest ∧
      reduceAfA last st = (f.fn? >>= fun g => .ok (true, ⟨.app g (some l.e) r.e false, .noun⟩ :: rest)) := by
  match st with
  | [] => exact .inl rfl
  | [_] => exact .inl rfl
  | [_, _] => exact .inl rfl
  | r :: f :: l :: rest =>
    cases hl : AfALeft last rest with
    | none => left; unfold reduceAfA; simp only [hl]
    | some yx =>
      obtain ⟨y, x⟩ := yx
      by_cases hc : ¬ (l.cls = .noun ∧ f.cls = .verb ∧ r.cls = .noun)
      · left; unfold reduceAfA; simp only [hl, if_pos hc]
      · by_cases hd : last = true ∨ y = .verb ∨ (y = .noun ∧ x ≠ .conj)
        · right
          refine ⟨r, f, l, rest, rfl, ?_⟩
          unfold reduceAfA; simp only [hl, if_neg hc, if_pos hd]
        · left; unfold reduceAfA; simp only [hl, if_neg hc, if_neg hd]

/-- without a reduction the stack does not change -/
theorem fA_false {st s : List (Item D)} {last : Bool} (h : reducefA last st = .ok (false, s)) : s = st := by
  rcases fA_cases st last with h' | ⟨r, f, rest, _, _, _, h'⟩
  · rw [h'] at h; simp at h; exact h.symm
  · rw [h'] at h; cases hf : f.fn? <;> simp [hf, bind, Except.bind] at h

theorem AfA_false {st s : List (Item D)} {last : Bool} (h : reduceAfA last st = .ok (false, s)) : s = st := by
  rcases AfA_cases st last with h' | ⟨r, f, l, rest, _, h'⟩
  · rw [h'] at h; simp at h; exact h.symm
  · rw [h'] at h; cases hf : f.fn? <;> simp [hf, bind, Except.bind] at h

theorem fA_length {st s : List (Item D)} {last : Bool} (h : reducefA last st = .ok (true, s)) : s.length < st.length := by
  rcases fA_cases st last with h' | ⟨r, f, rest, e, _, _, h'⟩
  · rw [h'] at h; simp at h
  · rw [h'] at h
    cases hf : f.fn? with
    | error e => simp [hf, bind, Except.bind] at h
    | ok g =>
      simp only [hf, bind, Except.bind, Except.ok.injEq, Prod.mk.injEq, true_and] at h
      rw [← h, e]; simp

theorem AfA_length {st s : List (Item D)} {last : Bool} (h : reduceAfA last st = .ok (true, s)) : s.length < st.length := by
  rcases AfA_cases st last with h' | ⟨r, f, l, rest, e, h'⟩
  · rw [h'] at h; simp at h
  · rw [h'] at h
    cases hf : f.fn? with
    | error e => simp [hf, bind, Except.bind] at h
    | ok g =>
      simp only [hf, bind, Except.bind, Except.ok.injEq, Prod.mk.injEq, true_and] at h
      rw [← h, e]; simp

/-- the two reductions exclude each other -/
theorem AfA_not_fA {st : List (Item D)} (h : reduceAfA false st ≠ .ok (false, st)) : reducefA false st = .ok (false, st) := by
  match st with
  | [] => rfl
  | [_] => rfl
  | [r, f] => exact absurd rfl h
  | [r, f, l] => exact absurd rfl h
  | [r, f, l, _] => exact absurd rfl h
  | r :: f :: l :: y :: x :: rest =>
    simp only [reduceAfA, AfALeft] at h
    by_cases hc : ¬ (l.cls = .noun ∧ f.cls = .verb ∧ r.cls = .noun)
    · rw [if_pos hc] at h; exact absurd rfl h
    · have hl : l.cls = .noun := by simp only [not_not] at hc; exact hc.1
      simp [reducefA, fALeft, hl]

/-! ### Arrays -/

/-- `resolveArrays` with enough rounds -/
def arr (st : List (Item D)) : Res (List (Item D)) := resolveArrays false st.length st

theorem resolveArrays_fuel (n m : Nat) (st : List (Item D)) (hn : st.length ≤ n) (hm : st.length ≤ m) :
    resolveArrays false n st = resolveArrays false m st := by
  induction n generalizing m st with
  | zero =>
    have : st = [] := by cases st <;> simp at hn; rfl
    subst this
    cases m with
    | zero => rfl
    | succ m => rfl
  | succ n ih =>
    cases m with
    | zero =>
      have : st = [] := by cases st <;> simp at hm; rfl
      subst this
      rfl
    | succ m =>
      simp only [resolveArrays, bind, Except.bind]
      cases h1 : reducefA false st with
      | error e => rfl
      | ok r1 =>
        obtain ⟨b1, s1⟩ := r1
        simp only
        cases h2 : reduceAfA false s1 with
        | error e => rfl
        | ok r2 =>
          obtain ⟨b2, s2⟩ := r2
          simp only
          cases hb : (b1 || b2) with
          | false => rfl
          | true =>
            have hlt : s2.length < st.length := by
              cases b1 with
              | true =>
                have := fA_length h1
                cases b2 with
                | true => have := AfA_length h2; omega
                | false => rw [AfA_false h2]; exact this
              | false =>
                have e := fA_false h1
                subst e
                cases b2 with
                | true => exact AfA_length h2
                | false => simp at hb
            exact ih m s2 (by omega) (by omega)

theorem arr_round (st s1 s2 : List (Item D)) (b1 b2 : Bool) (h1 : reducefA false st = .ok (b1, s1)) (h2 : reduceAfA false s1 = .ok (b2, s2))
    (hb : (b1 || b2) = true) : arr st = arr s2 := by
  have hlt : s2.length < st.length := by
    cases b1 with
    | true =>
      have := fA_length h1
      cases b2 with
      | true => have := AfA_length h2; omega
      | false => rw [AfA_false h2]; exact this
    | false =>
      have e := fA_false h1
      subst e
      cases b2 with
      | true => exact AfA_length h2
      | false => simp at hb
  unfold arr
  cases hl : st.length with
  | zero => omega
  | succ n =>
    simp only [resolveArrays, bind, Except.bind, h1, h2, hb, if_true]
    exact resolveArrays_fuel _ _ _ (by omega) (by omega)

theorem arr_fA_err (st : List (Item D)) (e : Fail) (h : reducefA false st = .error e) : arr st = .error e := by
  unfold arr
  cases st with
  | nil => simp [reducefA] at h
  | cons x xs => simp [resolveArrays, h, bind, Except.bind]

theorem arr_AfA_err (st : List (Item D)) (e : Fail) (h : reduceAfA false st = .error e) : arr st = .error e := by
  have hf := AfA_not_fA (st := st) (by rw [h]; simp)
  unfold arr
  cases st with
  | nil => simp [reduceAfA] at h
  | cons x xs => simp only [List.length_cons, resolveArrays, hf, h, bind, Except.bind]

theorem arr_AfA (st s : List (Item D)) (h : reduceAfA false st = .ok (true, s)) : arr st = arr s :=
  arr_round st st s false true (AfA_not_fA (by rw [h]; simp)) h rfl

theorem arr_fA (st s : List (Item D)) (h : reducefA false st = .ok (true, s)) : arr st = arr s := by
  cases h2 : reduceAfA false s with
  | error e =>
    rw [arr_AfA_err s e h2]
    unfold arr
    cases st with
    | nil => simp [reducefA] at h
    | cons x xs => simp only [List.length_cons, resolveArrays, h, h2, bind, Except.bind]
  | ok r =>
    obtain ⟨b, s2⟩ := r
    rw [arr_round st s s2 true b h h2 rfl]
    cases b with
    | true => exact (arr_AfA s s2 h2).symm
    | false => rw [AfA_false h2]

theorem arr_stop (st : List (Item D)) (h1 : reducefA false st = .ok (false, st)) (h2 : reduceAfA false st = .ok (false, st)) :
    arr st = .ok st := arrays_stop false _ st h1 h2

/-- more items on the left do not change what has been done -/
theorem arr_more (n : Nat) (c : List (Item D)) : ∀ st : List (Item D), st.length ≤ n →
    (∀ s, arr st = .ok s → arr (st ++ c) = arr (s ++ c)) ∧ (∀ e, arr st = .error e → arr (st ++ c) = .error e) := by
  induction n with
  | zero =>
    intro st hn
    have : st = [] := by cases st <;> simp at hn; rfl
    subst this
    exact ⟨fun s h => by rw [show arr ([] : List (Item D)) = .ok [] from rfl] at h; cases h; rfl,
      fun e h => by rw [show arr ([] : List (Item D)) = .ok [] from rfl] at h; cases h⟩
  | succ n ih =>
    intro st hn
    cases h1 : reducefA false st with
    | error e =>
      rw [arr_fA_err st e h1, arr_fA_err _ e (fA_more_err c h1)]
      exact ⟨fun s h => (by cases h), fun e h => h⟩
    | ok r1 =>
      obtain ⟨b1, s1⟩ := r1
      cases b1 with
      | true =>
        rw [arr_fA st s1 h1, arr_fA _ _ (fA_more c h1)]
        exact ih s1 (by have := fA_length h1; omega)
      | false =>
        have e := fA_false h1
        subst e
        cases h2 : reduceAfA false s1 with
        | error e =>
          rw [arr_AfA_err s1 e h2, arr_AfA_err _ e (AfA_more_err c h2)]
          exact ⟨fun s h => (by cases h), fun e h => h⟩
        | ok r2 =>
          obtain ⟨b2, s2⟩ := r2
          cases b2 with
          | true =>
            rw [arr_AfA s1 s2 h2, arr_AfA _ _ (AfA_more c h2)]
            exact ih s2 (by have := AfA_length h2; omega)
          | false =>
            have e := AfA_false h2
            subst e
            rw [arr_stop s2 h1 h2]
            exact ⟨fun s h => by cases h; rfl, fun e h => by cases h⟩

/-! ### Trains -/

theorem ff_more {st s : List (Item D)} (c : List (Item D)) (h : reduceff false st = some s) : reduceff false (st ++ c) = some (s ++ c) := by
  match st with
  | [] => simp [reduceff] at h
  | [_] => simp [reduceff] at h
  | [r0, r1] => simp [reduceff] at h
  | r0 :: r1 :: t :: rest =>
    simp only [reduceff, List.cons_append] at h ⊢
    by_cases hc : r0.cls = .verb ∧ r1.cls = .verb ∧ ((t :: rest = [] ∧ (false : Bool) = true) ∨ t.cls ≠ .conj)
    · have hc' : r0.cls = .verb ∧ r1.cls = .verb ∧ ((t :: (rest ++ c) = [] ∧ (false : Bool) = true) ∨ t.cls ≠ .conj) := by simpa using hc
      rw [if_pos hc] at h
      rw [if_pos hc']
      cases ht : trainOf r0.e with
      | none => simp only [ht, Option.some.injEq] at h ⊢; rw [← h]; rfl
      | some x => simp only [ht, Option.some.injEq] at h ⊢; rw [← h]; rfl
    · rw [if_neg hc] at h; cases h

/-- the two results of a reduction of a train -/
theorem ff_cases (st : List (Item D)) (last : Bool) : reduceff last st = none ∨
    ∃ r0 r1 rest g, st = r0 :: r1 :: rest ∧ r0.cls = .verb ∧ reduceff last st = some (⟨g, .verb⟩ :: rest) := by
  match st with
  | [] => exact .inl rfl
  | [_] => exact .inl rfl
  | [r0, r1] =>
    by_cases hc : r0.cls = .verb ∧ r1.cls = .verb ∧ ((True ∧ last = true) ∨ Cls.conj ≠ Cls.conj)
    · right
      cases ht : trainOf r0.e with
      | none => exact ⟨r0, r1, [], _, rfl, hc.1, by unfold reduceff; simp only [if_pos hc, ht]; rfl⟩
      | some x => exact ⟨r0, r1, [], _, rfl, hc.1, by unfold reduceff; simp only [if_pos hc, ht]; rfl⟩
    · left
      unfold reduceff; simp only [if_neg hc]
  | r0 :: r1 :: t :: rest =>
    by_cases hc : r0.cls = .verb ∧ r1.cls = .verb ∧ ((t :: rest = [] ∧ last = true) ∨ t.cls ≠ .conj)
    · right
      cases ht : trainOf r0.e with
      | none => exact ⟨r0, r1, t :: rest, _, rfl, hc.1, by unfold reduceff; simp only [if_pos hc, ht]; rfl⟩
      | some x => exact ⟨r0, r1, t :: rest, _, rfl, hc.1, by unfold reduceff; simp only [if_pos hc, ht]; rfl⟩
    · left
      unfold reduceff; simp only [if_neg hc]

theorem ff_length {st s : List (Item D)} {last : Bool} (h : reduceff last st = some s) : s.length < st.length := by
  rcases ff_cases st last with h' | ⟨r0, r1, rest, g, e, _, h'⟩
  · rw [h'] at h; cases h
  · rw [h'] at h; cases h; rw [e]; simp

theorem ff_verb {st s : List (Item D)} {last : Bool} (h : reduceff last st = some s) :
    (∃ r rest, st = r :: rest ∧ r.cls = .verb) ∧ ∃ r rest, s = r :: rest ∧ r.cls = .verb := by
  rcases ff_cases st last with h' | ⟨r0, r1, rest, g, e, hv, h'⟩
  · rw [h'] at h; cases h
  · rw [h'] at h; cases h; exact ⟨⟨_, _, e, hv⟩, _, _, rfl, rfl⟩

theorem trains_fuel (n m : Nat) (st : List (Item D)) (hn : st.length ≤ n) (hm : st.length ≤ m) :
    reduceTrains false n st = reduceTrains false m st := by
  induction n generalizing m st with
  | zero =>
    have : st = [] := by cases st <;> simp at hn; rfl
    subst this
    cases m with
    | zero => rfl
    | succ m => rfl
  | succ n ih =>
    cases m with
    | zero =>
      have : st = [] := by cases st <;> simp at hm; rfl
      subst this
      rfl
    | succ m =>
      simp only [reduceTrains]
      cases h : reduceff false st with
      | none => rfl
      | some s =>
        have := ff_length h
        exact ih m s (by omega) (by omega)

/-- `reduceTrains` with enough rounds -/
def trains (st : List (Item D)) : List (Item D) := reduceTrains false st.length st

theorem trainsEnd_ff {st s : List (Item D)} (h : reduceff false st = some s) : trains st = trains s := by
  have hl := ff_length h
  unfold trains
  cases hn : st.length with
  | zero => omega
  | succ n =>
    rw [reduceTrains]
    simp only [h]
    exact trains_fuel _ _ _ (by omega) (by omega)

theorem trainsEnd_stop {st : List (Item D)} (h : reduceff false st = none) : trains st = st := by
  unfold trains
  cases st with
  | nil => rfl
  | cons x xs => rw [List.length_cons, reduceTrains]; simp only [h]

theorem trains_more (n : Nat) (c : List (Item D)) : ∀ st : List (Item D), st.length ≤ n → trains (st ++ c) = trains (trains st ++ c) := by
  induction n with
  | zero =>
    intro st hn
    have : st = [] := by cases st <;> simp at hn; rfl
    subst this; rfl
  | succ n ih =>
    intro st hn
    cases h : reduceff false st with
    | none => rw [trainsEnd_stop h]
    | some s =>
      rw [trainsEnd_ff h, trainsEnd_ff (ff_more c h)]
      exact ih s (by have := ff_length h; omega)

theorem trains_verb (n : Nat) : ∀ st : List (Item D), st.length ≤ n → (∃ r rest, st = r :: rest ∧ r.cls = .verb) →
    ∃ r rest, trains st = r :: rest ∧ r.cls = .verb := by
  induction n with
  | zero =>
    rintro st hn ⟨r, rest, rfl, _⟩
    simp at hn
  | succ n ih =>
    intro st hn hv
    cases h : reduceff false st with
    | none => rw [trainsEnd_stop h]; exact hv
    | some s =>
      rw [trainsEnd_ff h]
      exact ih s (by have := ff_length h; omega) (ff_verb h).2

theorem arr_verb {r : Item D} (rest : List (Item D)) (h : r.cls = .verb) : arr (r :: rest) = .ok (r :: rest) := by
  apply arr_stop
  · cases rest with
    | nil => rfl
    | cons f rest => simp [reducefA, h]
  · match rest with
    | [] => rfl
    | [_] => rfl
    | f :: l :: rest =>
      simp only [reduceAfA]
      split
      · rfl
      · simp [h]

/-- the reductions of arrays and trains -/
def rightEnd (st : List (Item D)) : Res (List (Item D)) := arr st >>= fun s => .ok (trains s)

theorem rightEnd_more (st c : List (Item D)) : (rightEnd st >>= fun s => rightEnd (s ++ c)) = rightEnd (st ++ c) := by
  unfold rightEnd
  cases h : arr st with
  | error e => rw [(arr_more st.length c st (Nat.le_refl _)).2 e h]; rfl
  | ok s =>
    rw [(arr_more st.length c st (Nat.le_refl _)).1 s h]
    show (arr (trains s ++ c) >>= fun s => .ok (trains s)) = _
    cases hf : reduceff false s with
    | none => rw [trainsEnd_stop hf]
    | some s' =>
      obtain ⟨r, rest, hs, hv⟩ := (ff_verb hf).1
      obtain ⟨r', rest', hs', hv'⟩ := trains_verb s.length s (Nat.le_refl _) ⟨r, rest, hs, hv⟩
      have e1 : arr (trains s ++ c) = .ok (trains s ++ c) := by rw [hs']; exact arr_verb _ hv'
      have e2 : arr (s ++ c) = .ok (s ++ c) := by rw [hs]; exact arr_verb _ hv
      rw [e1, e2]
      show Except.ok (trains (trains s ++ c)) = .ok (trains (s ++ c))
      rw [← trains_more s.length c s (Nat.le_refl _)]

/-! ### Pushing without reductions of operators -/

theorem parseReduce_quiet (st : List (Item D)) (i : Item D) (hi : i.isSpec = false) (ls : List (Item D))
    (hb : resolveBrackets (i :: st.reverse) = .ok ls) (hq : opRound false ls = .ok (false, ls)) :
    parseReduce false (st ++ [i]) = rightEnd ls.reverse := by
  unfold parseReduce
  rw [List.reverse_append, List.reverse_singleton, List.singleton_append]
  simp only [hi, Bool.false_eq_true, if_false, Bool.false_and, hb, bind, Except.bind]
  rw [resolveOperators_idle false _ ls hq]
  simp only
  unfold rightEnd arr
  rw [List.length_reverse]
  simp only [bind, Except.bind]
  cases resolveArrays false ls.length ls.reverse with
  | error e => rfl
  | ok s => rfl

theorem brackets_none (i : Item D) (st : List (Item D)) (hst : ∀ j, st.getLast? = some j → j.isSpec = false) :
    resolveBrackets (i :: st.reverse) = .ok (i :: st.reverse) := by
  cases hr : st.reverse with
  | nil => rfl
  | cons s rest =>
    have := hst s (by rw [List.getLast?_eq_head?_reverse, hr]; rfl)
    unfold resolveBrackets
    simp only
    unfold Item.isSpec at this
    split <;> simp_all

/-- the item of the axis operator -/
def axisItem : Item D := ⟨.fn (.der "⍂" none none), .conj⟩

/-- An operator or derived function with an axis is the same as three items pushed one after the other, if no operator is waiting for
the item on the left of its operand. -/
theorem push_op_axis (st : List (Item D)) (hst : ∀ j, st.getLast? = some j → j.isSpec = false)
    (h1 : opAt st.reverse 1 = false) (op : String) (lo ro : Option (Expr D)) (c : Cls) (a : Expr D) (ha : isSpecE a = false) :
    parseReduce false (st ++ [⟨.spec [a], .adverb⟩] ++ [⟨.fn (.der op lo ro), c⟩]) =
      pushAll [⟨a, .noun⟩, axisItem, ⟨.fn (.der op lo ro), c⟩] st := by
  have hga : (⟨a, .noun⟩ : Item D).isSpec = false := by rw [Item.isSpec_eq]; exact ha
  have e0 : parseReduce false (st ++ [⟨.spec [a], .adverb⟩] ++ [⟨.fn (.der op lo ro), c⟩]) =
      rightEnd (st ++ [⟨a, .noun⟩] ++ [axisItem] ++ [⟨.fn (.der op lo ro), c⟩]) := by
    rw [parseReduce_quiet _ _ rfl (⟨.fn (.der op lo ro), c⟩ :: axisItem :: ⟨a, .noun⟩ :: st.reverse) (by simp [resolveBrackets, axisItem])
      (opRound_idle _ (.inr rfl))]
    simp
  have e1 : parseReduce false (st ++ [⟨a, .noun⟩]) = rightEnd (st ++ [⟨a, .noun⟩]) := by
    rw [parseReduce_quiet st _ hga _ (brackets_none _ st hst)]
    · simp
    · apply opRound_plain
      intro d hd
      simp only [List.getElem?_cons_succ] at hd
      simp only [opAt, hd] at h1
      exact h1
  have step2 : ∀ s1, rightEnd (st ++ [⟨a, .noun⟩]) = .ok s1 → parseReduce false (s1 ++ [axisItem]) = rightEnd (s1 ++ [axisItem]) ∧
      ∀ s2, rightEnd (s1 ++ [axisItem]) = .ok s2 → parseReduce false (s2 ++ [⟨.fn (.der op lo ro), c⟩]) = rightEnd (s2 ++ [⟨.fn (.der op lo ro), c⟩]) := by
    intro s1 hs1
    have k1 := parseReduce_keeps st _ hga hst s1 (e1.trans hs1)
    have g1 : ∀ j, s1.getLast? = some j → j.isSpec = false := by
      intro j hj; rw [k1] at hj; cases hj; exact hga
    have p1 : parseReduce false (s1 ++ [axisItem]) = rightEnd (s1 ++ [axisItem]) := by
      rw [parseReduce_quiet s1 _ rfl _ (brackets_none _ s1 g1) (opRound_idle _ (.inl rfl))]
      simp
    refine ⟨p1, ?_⟩
    intro s2 hs2
    have k2 := parseReduce_keeps s1 axisItem rfl g1 s2 (p1.trans hs2)
    have g2 : ∀ j, s2.getLast? = some j → j.isSpec = false := by
      intro j hj; rw [k2] at hj; cases hj; rfl
    have hx : opAt ((⟨.fn (.der op lo ro), c⟩ : Item D) :: s2.reverse) 1 = true := by
      have : s2.reverse[0]? = some axisItem := by
        rw [← List.head?_eq_getElem?, List.head?_reverse]; exact k2
      simp [opAt, this, axisItem, Cls.isOp]
    rw [parseReduce_quiet s2 _ rfl _ (brackets_none _ s2 g2) (opRound_idle _ (.inr hx))]
    simp
  rw [e0, ← rightEnd_more, ← rightEnd_more]
  simp only [pushAll, e1, bind, Except.bind]
  cases hs1 : rightEnd (st ++ [⟨a, .noun⟩]) with
  | error e => rfl
  | ok s1 =>
    obtain ⟨p1, p2⟩ := step2 s1 hs1
    simp only [p1]
    cases hs2 : rightEnd (s1 ++ [axisItem]) with
    | error e => rfl
    | ok s2 =>
      simp only [p2 s2 hs2]
      cases rightEnd (s2 ++ [⟨.fn (.der op lo ro), c⟩]) <;> rfl

/-! ### The second item from the left -/

theorem opAt_get {ls ls' : List (Item D)} {i : Nat} (h : ls'[i]? = ls[i]?) : opAt ls' i = opAt ls i := by simp [opAt, h]

theorem mopReduce_second (n i : Nat) (ls : List (Item D)) (red : Bool) (r : Bool × List (Item D))
    (h : mopReduce n (i + 1) ls red = .ok r) (h1 : opAt ls 1 = false) : opAt r.2 1 = false := by
  induction n generalizing i ls red with
  | zero => simp [mopReduce] at h; simp [← h, h1]
  | succ n ih =>
    rw [mopReduce.eq_def] at h
    simp only at h
    split at h
    · rename_i x d hx hd
      split at h
      · simp at h; simp [← h, h1]
      · split at h
        · simp at h; simp [← h, h1]
        · simp only [bind, Except.bind] at h
          split at h
          · simp at h
          · refine ih _ _ _ h ?_
            cases i with
            | zero =>
              have hlt : 1 < ls.length := by
                rcases Nat.lt_or_ge 1 ls.length with hl | hl
                · exact hl
                · rw [List.getElem?_eq_none hl] at hx; cases hx
              simp [opAt, List.getElem?_eraseIdx, List.getElem?_set, hlt, Cls.isOp]
            | succ i => rw [← h1]; exact opAt_get (by simp [List.getElem?_eraseIdx, List.getElem?_set])
    · simp at h; simp [← h, h1]

theorem dopReduce_second (ls : List (Item D)) (r : Bool × List (Item D)) (h : dopReduce 1 ls = .ok r) (h1 : opAt ls 1 = false) :
    opAt r.2 1 = false := by
  rw [dopReduce.eq_def] at h
  split at h
  · rename_i x d y hx hd hy
    split at h
    · simp at h; simp [← h, h1]
    · split at h
      · simp at h; simp [← h, h1]
      · simp only [bind, Except.bind] at h
        split at h
        · simp at h
        · simp only [Except.ok.injEq] at h
          have hlt : 1 < ls.length := by
            rcases Nat.lt_or_ge 1 ls.length with hl | hl
            · exact hl
            · rw [List.getElem?_eq_none hl] at hx; cases hx
          rw [← h]
          simp [opAt, List.getElem?_eraseIdx, List.getElem?_set, hlt, Cls.isOp]
  · simp at h; simp [← h, h1]

theorem opRound_second (ls : List (Item D)) (r : Bool × List (Item D)) (h : opRound false ls = .ok r) (h1 : opAt ls 1 = false) :
    opAt r.2 1 = false := by
  unfold opRound at h
  simp only [Bool.false_eq_true, if_false, bind, Except.bind] at h
  cases h1 : mopReduce ls.length 1 ls false with
  | error e => simp [h1] at h
  | ok r1 =>
    have e1 := mopReduce_second _ 0 _ _ _ h1 ‹_›
    simp only [h1] at h
    cases h2 : dopReduce 1 r1.2 with
    | error e => simp [h2] at h
    | ok r2 =>
      have e2 := dopReduce_second _ _ h2 e1
      simp only [h2, Except.ok.injEq] at h
      rw [← h]
      exact e2

theorem resolveOperators_second (n : Nat) (ls ls' : List (Item D)) (h : resolveOperators false n ls = .ok ls') (h1 : opAt ls 1 = false) :
    opAt ls' 1 = false := by
  induction n generalizing ls with
  | zero => simp [resolveOperators] at h; simpa [← h] using h1
  | succ n ih =>
    simp only [resolveOperators, bind, Except.bind] at h
    cases h2 : opRound false ls with
    | error e => simp [h2] at h
    | ok r =>
      have e1 := opRound_second _ _ h2 h1
      simp only [h2] at h
      split at h
      · exact ih _ h e1
      · simp at h; rw [← h]; exact e1

/-- replacing items on the right by one that is no operator -/
theorem second_replace (pre rest : List (Item D)) (n : Item D) (hp : pre ≠ []) (hn : n.cls.isOp = false)
    (h : opAt (pre ++ rest).reverse 1 = false) : opAt (n :: rest).reverse 1 = false := by
  rw [List.reverse_append] at h
  rw [List.reverse_cons]
  match hr : rest.reverse with
  | [] => rfl
  | [x] => simpa [opAt] using hn
  | x :: y :: ys => rw [hr] at h; exact h

theorem reducefA_second (st : List (Item D)) (r : Bool × List (Item D)) (h : reducefA false st = .ok r) (h1 : opAt st.reverse 1 = false) :
    opAt r.2.reverse 1 = false := by
  rcases fA_cases st false with h' | ⟨a, f, rest, e, _, _, h'⟩
  · rw [h'] at h; cases h; exact h1
  · rw [h'] at h
    cases hf : f.fn? with
    | error e => simp [hf, bind, Except.bind] at h
    | ok g =>
      simp only [hf, bind, Except.bind, Except.ok.injEq] at h
      rw [← h]
      exact second_replace [a, f] rest _ (by simp) rfl (by rw [e] at h1; exact h1)

theorem reduceAfA_second (st : List (Item D)) (r : Bool × List (Item D)) (h : reduceAfA false st = .ok r) (h1 : opAt st.reverse 1 = false) :
    opAt r.2.reverse 1 = false := by
  rcases AfA_cases st false with h' | ⟨a, f, l, rest, e, h'⟩
  · rw [h'] at h; cases h; exact h1
  · rw [h'] at h
    cases hf : f.fn? with
    | error e => simp [hf, bind, Except.bind] at h
    | ok g =>
      simp only [hf, bind, Except.bind, Except.ok.injEq] at h
      rw [← h]
      exact second_replace [a, f, l] rest _ (by simp) rfl (by rw [e] at h1; exact h1)

theorem resolveArrays_second (n : Nat) (st st' : List (Item D)) (h : resolveArrays false n st = .ok st') (h1 : opAt st.reverse 1 = false) :
    opAt st'.reverse 1 = false := by
  induction n generalizing st with
  | zero => simp only [resolveArrays, Except.ok.injEq] at h; rw [← h]; exact h1
  | succ n ih =>
    simp only [resolveArrays, bind, Except.bind] at h
    cases h2 : reducefA false st with
    | error e => simp [h2] at h
    | ok r1 =>
      have e1 := reducefA_second _ _ h2 h1
      simp only [h2] at h
      cases h3 : reduceAfA false r1.2 with
      | error e => simp [h3] at h
      | ok r2 =>
        have e2 := reduceAfA_second _ _ h3 e1
        simp only [h3] at h
        split at h
        · exact ih _ h e2
        · simp only [Except.ok.injEq] at h; rw [← h]; exact e2

theorem reduceTrains_second (n : Nat) (st : List (Item D)) (h1 : opAt st.reverse 1 = false) : opAt (reduceTrains false n st).reverse 1 = false := by
  induction n generalizing st with
  | zero => exact h1
  | succ n ih =>
    rw [reduceTrains]
    rcases ff_cases st false with h | ⟨r0, r1, rest, g, e, _, h⟩
    · simp only [h]; exact h1
    · simp only [h]
      exact ih _ (second_replace [r0, r1] rest _ (by simp) rfl (by rw [e] at h1; exact h1))

/-- if the leftmost item is no operator, then it is none either when it is the second one -/
theorem parseReduce_second (st : List (Item D)) (i : Item D) (hi : i.isSpec = false) (hst : ∀ j, st.getLast? = some j → j.isSpec = false)
    (hop : ∀ j, st.getLast? = some j → j.cls.isOp = false) (st' : List (Item D)) (h : parseReduce false (st ++ [i]) = .ok st') :
    opAt st'.reverse 1 = false := by
  have h0 : opAt (i :: st.reverse) 1 = false := by
    unfold opAt
    rw [List.getElem?_cons_succ, ← List.head?_eq_getElem?, List.head?_reverse]
    cases hj : st.getLast? with
    | none => rfl
    | some j => exact hop j hj
  unfold parseReduce at h
  rw [List.reverse_append, List.reverse_singleton, List.singleton_append] at h
  simp only [hi, Bool.false_eq_true, if_false, Bool.false_and, brackets_none i st hst, bind, Except.bind] at h
  generalize h1 : resolveOperators false (i :: st.reverse).length (i :: st.reverse) = x at h
  cases x with
  | error e => simp at h
  | ok ls =>
    have e1 := resolveOperators_second _ _ _ h1 h0
    simp only at h
    cases h2 : resolveArrays false ls.length ls.reverse with
    | error e => simp [h2] at h
    | ok ls2 =>
      have e2 := resolveArrays_second _ _ _ h2 (by rw [List.reverse_reverse]; exact e1)
      simp only [h2, Except.ok.injEq] at h
      rw [← h]
      unfold resolveFunctions
      simp only [Bool.false_eq_true, if_false]
      exact reduceTrains_second _ _ e2

end Iv

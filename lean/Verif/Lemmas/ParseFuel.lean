import Verif.SpecParse
/-
The bounds of the loops of the parser have no influence (for C46).
-/
namespace Iv
variable {D : Type}

theorem splitTokens_length (at_ : TT) (inc dec : List TT) (lv : Int) (cur ts : List Token) :
    ∀ p ∈ splitTokens at_ inc dec lv cur ts, p.length ≤ cur.length + ts.length := by
  induction ts generalizing lv cur with
  | nil => intro p hp; simp [splitTokens] at hp; subst hp; simp
  | cons t ts ih =>
    intro p hp
    unfold splitTokens at hp
    simp only at hp
    generalize (if t.t ∈ inc then lv + 1 else if t.t ∈ dec then lv - 1 else lv) = lv' at hp
    split at hp
    · rcases List.mem_cons.mp hp with rfl | hp
      · simp
      · have := ih _ _ p hp; simp at this ⊢; omega
    · have := ih _ _ p hp; simp at this ⊢; omega

theorem matchParen_length (left right : TT) (l : Nat) (inner ts inner' rest : List Token)
    (h : matchParen left right l inner ts = some (inner', rest)) : rest.length < ts.length ∧ inner'.length < inner.length + ts.length := by
  induction ts generalizing l inner with
  | nil => simp [matchParen] at h
  | cons t ts ih =>
    unfold matchParen at h
    split at h
    · simp at h
    · split at h
      · have := ih _ _ h; simp at this ⊢; omega
      · split at h
        · split at h
          · simp only [Option.some.injEq, Prod.mk.injEq] at h; obtain ⟨rfl, rfl⟩ := h; simp
          · have := ih _ _ h; simp at this ⊢; omega
        · have := ih _ _ h; simp at this ⊢; omega

theorem collectLoop_length (ctx : PCtx D) (ar : Option (List (Expr D))) (ts rest : List Token) (r : Option (List (Expr D)))
    (h : collectLoop ctx ar ts = .ok (r, rest)) : rest.length ≤ ts.length := by
  induction ts generalizing ar with
  | nil => simp [collectLoop] at h; simp [← h.2]
  | cons t ts ih =>
    unfold collectLoop at h
    split at h
    · split at h
      · simp at h
      · have := ih _ h; simp; omega
    · have := ih _ h; simp; omega
    · simp only at h
      split at h
      · have := ih _ h; simp; omega
      · split at h
        · simp at h
        · have := ih _ h; simp; omega
    · split at h
      · have := ih _ h; simp; omega
      · simp at h; simp [← h.2]
    · simp at h; simp [← h.2]

theorem collectArray_length (ctx : PCtx D) (t : Token) (ht : strandTok ctx t = true) (ts rest : List Token) (i : Item D)
    (h : collectArray ctx (t :: ts) = .ok (i, rest)) : rest.length ≤ ts.length := by
  unfold collectArray at h
  simp only [bind, Except.bind] at h
  split at h
  · simp at h
  · rename_i v hv
    simp only [Except.ok.injEq, Prod.mk.injEq] at h
    rw [← h.2]
    unfold collectLoop at hv
    unfold strandTok at ht
    split at hv
    · split at hv
      · simp at hv
      · exact collectLoop_length _ _ _ _ _ hv
    · exact collectLoop_length _ _ _ _ _ hv
    · simp only at hv
      split at hv
      · exact collectLoop_length _ _ _ _ _ hv
      · split at hv
        · simp at hv
        · exact collectLoop_length _ _ _ _ _ hv
    · rename_i hid
      rw [hid] at ht
      simp only [beq_iff_eq] at ht
      rw [ht] at hv
      exact collectLoop_length _ _ _ _ _ hv
    · rename_i h1 h2 h3 h4
      split at ht <;> simp_all

theorem subStatement_length (ctx : PCtx D) (parse : List Token → Res (Option (Item D))) (right : TT) (ts rest : List Token) (i : Item D)
    (h : subStatement ctx parse right ts = .ok (i, rest)) : rest.length ≤ ts.length := by
  unfold subStatement at h
  simp only at h
  generalize (if right = TT.rightBrace then TT.leftBrace else if right = .rightParen then .leftParen else .leftBrack) = left at h
  split at h
  · simp at h
  · rename_i rest' hm
    have := (matchParen_length _ _ _ _ _ _ _ hm).1
    split at h
    · simp at h; rw [← h.2]; omega
    · split at h
      · simp at h; rw [← h.2]; omega
      · simp at h
  · rename_i inner rest' hne hm
    have := (matchParen_length _ _ _ _ _ _ _ hm).1
    have hr : rest = rest' := by
      split at h
      · split at h
        · simp only [bind, Except.bind] at h
          split at h
          · simp at h
          · simp at h; exact h.2.symm
        · simp only [bind, Except.bind] at h
          split at h
          · simp at h
          · split at h
            · simp at h; exact h.2.symm
            · simp at h
      · split at h
        · simp only [bind, Except.bind] at h
          split at h
          · simp at h
          · simp at h; exact h.2.symm
        · simp only [bind, Except.bind] at h
          split at h
          · simp at h
          · simp at h; exact h.2.symm
    rw [hr]; omega

theorem nextItem_length (ctx : PCtx D) (parse : List Token → Res (Option (Item D))) (prev : Option (Item D)) (t : Token)
    (ts rest : List Token) (i : Item D) (h : nextItem ctx parse prev t ts = .ok (i, rest)) : rest.length ≤ ts.length := by
  unfold nextItem at h
  split at h
  · split at h
    · simp at h; rw [← h.2]; omega
    · split at h
      · simp at h
      · split at h <;> (simp at h; rw [← h.2]; omega)
  · rename_i ht; exact collectArray_length ctx t (by simp [strandTok, ht]) ts rest i h
  · rename_i ht; exact collectArray_length ctx t (by simp [strandTok, ht]) ts rest i h
  · rename_i ht; exact collectArray_length ctx t (by simp [strandTok, ht]) ts rest i h
  · rename_i ht
    split at h
    · simp at h
    · simp at h; rw [← h.2]; omega
    · rename_i hv; exact collectArray_length ctx t (by simp [strandTok, ht, hv]) ts rest i h
  · simp at h; rw [← h.2]; omega
  · exact subStatement_length _ _ _ _ _ _ h
  · exact subStatement_length _ _ _ _ _ _ h
  · exact subStatement_length _ _ _ _ _ _ h
  · simp at h

/-- The bound of the loop of a statement has no influence if it is at least the number of tokens. -/
theorem stmtLoop_fuel (ctx : PCtx D) (parse : List Token → Res (Option (Item D))) (n : Nat) (ts : List Token) (st : List (Item D))
    (hn : ts.length ≤ n) : stmtLoop ctx parse n ts st = stmtLoop ctx parse ts.length ts st := by
  suffices H : ∀ (k n m : Nat) (ts : List Token) (st : List (Item D)), ts.length ≤ k → ts.length ≤ n → ts.length ≤ m →
      stmtLoop ctx parse n ts st = stmtLoop ctx parse m ts st from H ts.length n ts.length ts st (Nat.le_refl _) hn (Nat.le_refl _)
  intro k
  induction k with
  | zero =>
    intro n m ts st hk _ _
    have : ts = [] := List.length_eq_zero_iff.mp (by omega)
    subst this
    cases st <;> simp [stmtLoop]
  | succ k ih =>
    intro n m ts st hk hn hm
    cases ts with
    | nil => cases st <;> simp [stmtLoop]
    | cons t ts =>
      obtain ⟨n, rfl⟩ : ∃ a, n = a + 1 := ⟨n - 1, by simp at hn; omega⟩
      obtain ⟨m, rfl⟩ : ∃ a, m = a + 1 := ⟨m - 1, by simp at hm; omega⟩
      simp only [stmtLoop]
      split
      · rfl
      · cases h : nextItem ctx parse st.getLast? t ts with
        | error e => rfl
        | ok p =>
          obtain ⟨i, ts'⟩ := p
          have hl := nextItem_length _ _ _ _ _ _ _ h
          simp only [bind, Except.bind]
          cases parseReduce false (st ++ [i]) with
          | error e => rfl
          | ok st' =>
            simp at hk hn hm
            exact ih n m ts' st' (by omega) (by omega) (by omega)

theorem parseAll_congr (p1 p2 : List Token → Res (Option (Item D))) (l : List (List Token)) (h : ∀ ts ∈ l, p1 ts = p2 ts) :
    parseAll p1 l = parseAll p2 l := by
  induction l with
  | nil => rfl
  | cons ts l ih => simp only [parseAll, h ts (by simp), ih (fun t ht => h t (by simp [ht]))]

theorem parseGuard_congr (p1 p2 : List Token → Res (Option (Item D))) (n : Nat) (h : ∀ ts, ts.length < n → p1 ts = p2 ts) (ts : List Token)
    (hts : ts.length < n) : parseGuard p1 ts = parseGuard p2 ts := by
  unfold parseGuard
  have : parseAll p1 (splitTokens .colon [.leftBrace] [.rightBrace] 0 [] ts) =
      parseAll p2 (splitTokens .colon [.leftBrace] [.rightBrace] 0 [] ts) := by
    refine parseAll_congr _ _ _ (fun t ht => h t ?_)
    have := splitTokens_length _ _ _ _ _ _ t ht
    simp at this; omega
  simp only [this]

theorem parseGuards_congr (p1 p2 : List Token → Res (Option (Item D))) (n : Nat) (h : ∀ ts, ts.length < n → p1 ts = p2 ts)
    (l : List (List Token)) (hl : ∀ ts ∈ l, ts.length < n) : parseGuards p1 l = parseGuards p2 l := by
  induction l with
  | nil => rfl
  | cons ts l ih =>
    have e1 := parseGuard_congr p1 p2 n h ts (hl ts (by simp))
    have e2 := ih (fun t ht => hl t (by simp [ht]))
    cases l with
    | nil => unfold parseGuards; rw [e1]
    | cons u l =>
      unfold parseGuards
      rw [e1, e2]

theorem subStatement_congr (ctx : PCtx D) (p1 p2 : List Token → Res (Option (Item D))) (n : Nat) (h : ∀ ts, ts.length < n → p1 ts = p2 ts)
    (right : TT) (ts : List Token) (hts : ts.length ≤ n) : subStatement ctx p1 right ts = subStatement ctx p2 right ts := by
  unfold subStatement
  simp only
  split
  · rfl
  · rfl
  · rename_i inner rest hne hm
    have hl := (matchParen_length _ _ _ _ _ _ _ hm).2
    have hi : inner.length < n := by simp at hl; omega
    have hlist : parseList ctx p1 inner = parseList ctx p2 inner := by
      unfold parseList
      simp only
      rw [parseAll_congr p1 p2 _ (fun t ht => h t (by
        have := splitTokens_length _ _ _ _ _ _ t ((List.dropLast_subset _) ht)
        simp at this; omega))]
    have hbrack : parseBrackets ctx p1 inner = parseBrackets ctx p2 inner := by
      unfold parseBrackets
      simp only
      rw [parseAll_congr p1 p2 _ (fun t ht => h t (by
        have := splitTokens_length _ _ _ _ _ _ t ht
        simp at this; omega))]
    have hlam : parseLambda p1 inner = parseLambda p2 inner := by
      unfold parseLambda
      simp only
      rw [parseGuards_congr p1 p2 n h _ (fun t ht => by
        have := splitTokens_length _ _ _ _ _ _ t ht
        simp at this; omega)]
    rw [hlist, hbrack, hlam, h inner hi]

theorem nextItem_congr (ctx : PCtx D) (p1 p2 : List Token → Res (Option (Item D))) (n : Nat) (h : ∀ ts, ts.length < n → p1 ts = p2 ts)
    (prev : Option (Item D)) (t : Token) (ts : List Token) (hts : ts.length ≤ n) : nextItem ctx p1 prev t ts = nextItem ctx p2 prev t ts := by
  unfold nextItem
  rw [subStatement_congr ctx p1 p2 n h _ ts hts, subStatement_congr ctx p1 p2 n h _ ts hts, subStatement_congr ctx p1 p2 n h _ ts hts]

theorem stmtLoop_congr (ctx : PCtx D) (p1 p2 : List Token → Res (Option (Item D))) (n : Nat) (h : ∀ ts, ts.length < n → p1 ts = p2 ts)
    (k : Nat) (ts : List Token) (st : List (Item D)) (hts : ts.length ≤ n) : stmtLoop ctx p1 k ts st = stmtLoop ctx p2 k ts st := by
  induction k generalizing ts st with
  | zero => cases ts <;> cases st <;> simp [stmtLoop]
  | succ k ih =>
    cases ts with
    | nil => cases st <;> simp [stmtLoop]
    | cons t ts =>
      simp at hts
      simp only [stmtLoop]
      split
      · rfl
      · rw [nextItem_congr ctx p1 p2 n h _ _ _ (by omega)]
        cases hn : nextItem ctx p2 st.getLast? t ts with
        | error e => rfl
        | ok p =>
          obtain ⟨i, ts'⟩ := p
          have hl := nextItem_length _ _ _ _ _ _ _ hn
          simp only [bind, Except.bind]
          cases parseReduce false (st ++ [i]) with
          | error e => rfl
          | ok st' => exact ih ts' st' (by omega)

/-- The bound on the nesting has no influence if it is larger than the number of tokens. -/
theorem parseN_fuel (ctx : PCtx D) (n : Nat) (ts : List Token) (hn : ts.length < n) : parseN ctx n ts = parseStatement ctx ts := by
  suffices H : ∀ (k n m : Nat) (ts : List Token), ts.length ≤ k → ts.length < n → ts.length < m → parseN ctx n ts = parseN ctx m ts from
    H ts.length n (ts.length + 1) ts (Nat.le_refl _) hn (Nat.lt_succ_self _)
  intro k
  induction k with
  | zero =>
    intro n m ts hk hn hm
    have : ts = [] := List.length_eq_zero_iff.mp (by omega)
    subst this
    obtain ⟨n, rfl⟩ : ∃ a, n = a + 1 := ⟨n - 1, by omega⟩
    obtain ⟨m, rfl⟩ : ∃ a, m = a + 1 := ⟨m - 1, by omega⟩
    rfl
  | succ k ih =>
    intro n m ts hk hn hm
    obtain ⟨n, rfl⟩ : ∃ a, n = a + 1 := ⟨n - 1, by omega⟩
    obtain ⟨m, rfl⟩ : ∃ a, m = a + 1 := ⟨m - 1, by omega⟩
    exact stmtLoop_congr ctx _ _ ts.length (fun us hus => ih n m us (by omega) (by omega) (by omega)) _ _ _ (by simp)

/-- `parseStatement` as a loop that parses parenthesized parts with `parseStatement` -/
theorem parseStatement_eq (ctx : PCtx D) (ts : List Token) :
    parseStatement ctx ts = stmtLoop ctx (parseStatement ctx) ts.length ts.reverse [] :=
  stmtLoop_congr ctx _ _ ts.length (fun us hus => parseN_fuel ctx ts.length us hus) _ _ _ (by simp)

end Iv

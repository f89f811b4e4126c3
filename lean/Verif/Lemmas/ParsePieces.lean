import Verif.Lemmas.ParseTokens
/-
The pieces of a statement: the parser reads each of them as one item (C46).
-/
namespace Iv
variable {D : Type}

/-- what is known of the nested statements -/
structure GoodQ (ctx : PCtx D) (Q : List Token → Item D → Prop) : Prop where
  parse : ∀ ts i, Q ts i → parseStatement ctx ts = .ok (some i)
  nest : ∀ ts i, Q ts i → Nest false false ts
  ne : ∀ ts i, Q ts i → ts ≠ []
  spec : ∀ ts i, Q ts i → isSpecE i.e = false
  noun : ∀ ts i, Q ts i → i.cls = .noun → isFnE i.e = false

variable {ctx : PCtx D} {Q : List Token → Item D → Prop}

theorem parseStatement_nil : parseStatement ctx [] = .ok none := rfl

/-! ### Brackets -/

theorem Slot.nest (hQ : GoodQ ctx Q) {ts : List Token} {e : Expr D} (h : Slot ctx Q ts e) : Nest false false ts := by
  cases h with
  | none => exact .nil _ _
  | some _ i h => exact hQ.nest _ _ h

theorem Slot.parse (hQ : GoodQ ctx Q) {ts : List Token} {e : Expr D} (h : Slot ctx Q ts e) :
    ∃ o, parseStatement ctx ts = .ok o ∧ (o.map Item.e).getD (.lit ctx.empty) = e := by
  cases h with
  | none => exact ⟨Option.none, rfl, rfl⟩
  | some _ i h => exact ⟨Option.some i, hQ.parse _ _ h, rfl⟩

theorem Slots.nest (hQ : GoodQ ctx Q) {ts : List Token} {es : List (Expr D)} (h : Slots ctx Q ts es) : Nest true false ts := by
  induction h with
  | one ts e h => exact (h.nest hQ).mono _ _ (fun _ => rfl) id
  | cons ts e us es h _ ih => exact ((h.nest hQ).mono _ _ (fun _ => rfl) id).append (.semi _ _ ih)

theorem Slots.parse (hQ : GoodQ ctx Q) {ts : List Token} {es : List (Expr D)} (h : Slots ctx Q ts es) :
    ∃ os, parseAll (parseStatement ctx)
        (splitTokens .semicolon [.leftParen, .leftBrack] [.rightParen, .rightBrack] 0 [] ts) = .ok os ∧
      os.map (fun e => e.getD (.lit ctx.empty)) = es := by
  induction h with
  | one ts e h =>
    obtain ⟨o, e1, e2⟩ := h.parse hQ
    have := (h.nest hQ).split_semi2 0 (by omega) (fun h => absurd h (by decide)) [] []
    rw [List.append_nil, List.nil_append] at this
    rw [this, splitTokens]
    exact ⟨[o.map Item.e], by simp [parseAll, e1, bind, Except.bind], by simp [e2]⟩
  | cons ts e us es h _ ih =>
    obtain ⟨o, e1, e2⟩ := h.parse hQ
    obtain ⟨os, e3, e4⟩ := ih
    rw [(h.nest hQ).split_semi2 0 (by omega) (fun h => absurd h (by decide)) [], List.nil_append,
      split_at .semicolon _ _ _ tSemi _ (by decide) (by decide) rfl]
    exact ⟨o.map Item.e :: os, by simp [parseAll, e1, e3, bind, Except.bind], by simp [e2, e4]⟩

theorem Brackets.nest (hQ : GoodQ ctx Q) {ts : List Token} {es : List (Expr D)} (h : Brackets ctx Q ts es) : Nest true false ts := by
  cases h with
  | empty => exact .nil _ _
  | slots _ _ _ h => exact h.nest hQ

theorem Brackets.parse (hQ : GoodQ ctx Q) {ts : List Token} {es : List (Expr D)} (h : Brackets ctx Q ts es) (more : List Token) :
    subStatement ctx (parseStatement ctx) .rightBrack (ts.reverse ++ tLB :: more) = .ok (⟨.spec es, .adverb⟩, more) := by
  have hm := (h.nest hQ).matched tLB .leftBrack .rightBrack (.inr (.inl ⟨rfl, rfl⟩)) rfl more
  unfold subStatement
  simp only [show (TT.rightBrack = TT.rightBrace) = False by simp, show (TT.rightBrack = TT.rightParen) = False by simp, if_false]
  rw [hm]
  cases h with
  | empty => rfl
  | slots _ _ hne h =>
    obtain ⟨os, e1, e2⟩ := h.parse hQ
    cases ts with
    | nil => exact absurd rfl hne
    | cons t ts =>
      simp only [show (TT.leftBrack = TT.leftParen) = False by simp, if_false, if_true, parseBrackets, e1, bind, Except.bind, e2]

/-! ### Lists -/

theorem ListElems.nest (hQ : GoodQ ctx Q) {ts : List Token} {es : List (Expr D)} (h : ListElems ctx Q ts es) : Nest true false ts := by
  induction h with
  | nil => exact .nil _ _
  | cons ts e us es h _ _ ih => exact ((h.nest hQ).mono _ _ (fun _ => rfl) id).append (.semi _ _ ih)

theorem splitTokens_ne (at_ : TT) (inc dec : List TT) (lv : Int) (cur ts : List Token) : splitTokens at_ inc dec lv cur ts ≠ [] := by
  induction ts generalizing lv cur with
  | nil => simp [splitTokens]
  | cons t ts ih =>
    rw [splitTokens]
    generalize (if t.t ∈ inc then lv + 1 else if t.t ∈ dec then lv - 1 else lv) = lv'
    by_cases h : lv' = 0 ∧ t.t = at_
    · simp [h]
    · simp only [if_neg h]; exact ih _ _

theorem ListElems.parse (hQ : GoodQ ctx Q) {ts : List Token} {es : List (Expr D)} (h : ListElems ctx Q ts es) :
    ∃ os, parseAll (parseStatement ctx) (splitTokens .semicolon [.leftParen] [.rightParen] 0 [] ts).dropLast = .ok os ∧
      os.map (fun e => e.getD (.lit ctx.empty)) = es := by
  induction h with
  | nil => exact ⟨[], rfl, rfl⟩
  | cons ts e us es h hb _ ih =>
    obtain ⟨o, e1, e2⟩ := h.parse hQ
    obtain ⟨os, e3, e4⟩ := ih
    rw [(h.nest hQ).split_semi1 0 (by omega) (fun _ => ⟨rfl, hb⟩) [], List.nil_append,
      split_at .semicolon _ _ _ tSemi _ (by decide) (by decide) rfl, List.dropLast_cons_of_ne_nil (splitTokens_ne _ _ _ _ _ _)]
    exact ⟨o.map Item.e :: os, by simp [parseAll, e1, e3, bind, Except.bind], by simp [e2, e4]⟩

theorem ListElems.last {ts : List Token} {es : List (Expr D)} (h : ListElems ctx Q ts es) (hne : ts ≠ []) :
    (ts.getLast?).map Token.t = some .semicolon := by
  induction h with
  | nil => exact absurd rfl hne
  | cons ts e us es h hb _ ih =>
    rw [List.getLast?_append]
    cases us with
    | nil => rfl
    | cons u us =>
      rw [List.getLast?_cons_cons]
      have := ih (by simp)
      cases hl : (u :: us).getLast? with
      | none => simp at hl
      | some z => simpa [hl] using this

theorem ListElems.sub (hQ : GoodQ ctx Q) {ts : List Token} {es : List (Expr D)} (h : ListElems ctx Q ts es) (hne : ts ≠ []) (more : List Token) :
    subStatement ctx (parseStatement ctx) .rightParen (ts.reverse ++ tLP :: more) = .ok (⟨.list es, .noun⟩, more) := by
  have hm := (h.nest hQ).matched tLP .leftParen .rightParen (.inl ⟨rfl, rfl⟩) rfl more
  have hl := h.last hne
  obtain ⟨os, hp, he⟩ := h.parse hQ
  unfold subStatement
  simp only [show (TT.rightParen = TT.rightBrace) = False by simp, if_false, if_true]
  rw [hm]
  cases ts with
  | nil => exact absurd rfl hne
  | cons t ts =>
    simp only [hl, if_true, parseList, hp, bind, Except.bind, he]

theorem paren_sub (hQ : GoodQ ctx Q) {ts : List Token} {i : Item D} (h : Q ts i) (more : List Token) :
    subStatement ctx (parseStatement ctx) .rightParen (ts.reverse ++ tLP :: more) = .ok (i, more) := by
  have hm := (hQ.nest _ _ h).matched tLP .leftParen .rightParen (.inl ⟨rfl, rfl⟩) rfl more
  have hl := (hQ.nest _ _ h).last rfl
  have hp := hQ.parse _ _ h
  have hne := hQ.ne _ _ h
  unfold subStatement
  simp only [show (TT.rightParen = TT.rightBrace) = False by simp, if_false, if_true]
  rw [hm]
  cases ts with
  | nil => exact absurd rfl hne
  | cons t ts => simp only [if_neg hl, if_true, hp, bind, Except.bind]

/-! ### Lambda functions -/

theorem Guarded.nest (hQ : GoodQ ctx Q) {ts : List Token} {g : Guard D} (h : Guarded Q ts g) : Nest false true ts := by
  cases h with
  | plain _ i h => exact (hQ.nest _ _ h).mono _ _ id (fun _ => rfl)
  | cond cs c ts i h1 h2 =>
    exact ((hQ.nest _ _ h1).mono _ _ id (fun _ => rfl)).append (.colon _ _ ((hQ.nest _ _ h2).mono _ _ id (fun _ => rfl)))

theorem Body.nest (hQ : GoodQ ctx Q) {ts : List Token} {gs : List (Guard D)} (h : Body Q ts gs) : Nest false true ts := by
  induction h with
  | one ts g h => exact h.nest hQ
  | trail ts g h => exact (h.nest hQ).append (.dia _ _ (.nil _ _))
  | ternary cs c ts i us j h1 h2 h3 =>
    exact ((hQ.nest _ _ h1).mono _ _ id (fun _ => rfl)).append (.colon _ _ (((hQ.nest _ _ h2).mono _ _ id (fun _ => rfl)).append
      (.colon _ _ ((hQ.nest _ _ h3).mono _ _ id (fun _ => rfl)))))
  | cons ts g us gs h _ ih => exact (h.nest hQ).append (.dia _ _ ih)

theorem split_q (hQ : GoodQ ctx Q) (at_ : TT) (ha : at_ = .colon ∨ at_ = .diamond) {ts : List Token} {i : Item D} (h : Q ts i)
    (cur rest : List Token) :
    splitTokens at_ [.leftBrace] [.rightBrace] 0 cur (ts ++ rest) = splitTokens at_ [.leftBrace] [.rightBrace] 0 (cur ++ ts) rest :=
  (hQ.nest _ _ h).split_brace at_ ha 0 (by omega) (fun h => absurd h (by decide)) cur rest

/-- a guarded expression has no separating diamonds -/
theorem Guarded.split (hQ : GoodQ ctx Q) {ts : List Token} {g : Guard D} (h : Guarded Q ts g) (cur rest : List Token) :
    splitTokens .diamond [.leftBrace] [.rightBrace] 0 cur (ts ++ rest) =
      splitTokens .diamond [.leftBrace] [.rightBrace] 0 (cur ++ ts) rest := by
  cases h with
  | plain _ i h => exact split_q hQ _ (.inr rfl) h _ _
  | cond cs c ts i h1 h2 =>
    rw [List.append_assoc, split_q hQ _ (.inr rfl) h1, List.cons_append, split_step _ _ _ _ _ _ _ (by decide) (by decide) (by decide),
      split_q hQ _ (.inr rfl) h2]
    simp

theorem Guarded.parse (hQ : GoodQ ctx Q) {ts : List Token} {g : Guard D} (h : Guarded Q ts g) :
    parseGuard (parseStatement ctx) ts = .ok (g, none) := by
  unfold parseGuard
  cases h with
  | plain _ i h =>
    have := split_q hQ .colon (.inl rfl) h [] []
    rw [List.append_nil, List.nil_append, splitTokens] at this
    simp [this, parseAll, hQ.parse _ _ h, bind, Except.bind]
  | cond cs c ts i h1 h2 =>
    have e2 := split_q hQ .colon (.inl rfl) h2 [] []
    rw [List.append_nil, List.nil_append, splitTokens] at e2
    have e1 := split_q hQ .colon (.inl rfl) h1 [] (tColon :: ts)
    rw [List.nil_append, split_at .colon _ _ _ tColon _ (by decide) (by decide) rfl, e2] at e1
    simp [e1, parseAll, hQ.parse _ _ h1, hQ.parse _ _ h2, bind, Except.bind]

theorem ternary_parse (hQ : GoodQ ctx Q) {cs ts us : List Token} {c i j : Item D} (h1 : Q cs c) (h2 : Q ts i) (h3 : Q us j) :
    parseGuard (parseStatement ctx) (cs ++ tColon :: (ts ++ tColon :: us)) = .ok (.mk (some c.e) (some i.e), some j.e) := by
  unfold parseGuard
  have e3 := split_q hQ .colon (.inl rfl) h3 [] []
  rw [List.append_nil, List.nil_append, splitTokens] at e3
  have e2 := split_q hQ .colon (.inl rfl) h2 [] (tColon :: us)
  rw [List.nil_append, split_at .colon _ _ _ tColon _ (by decide) (by decide) rfl, e3] at e2
  have e1 := split_q hQ .colon (.inl rfl) h1 [] (tColon :: (ts ++ tColon :: us))
  rw [List.nil_append, split_at .colon _ _ _ tColon _ (by decide) (by decide) rfl, e2] at e1
  simp [e1, parseAll, hQ.parse _ _ h1, hQ.parse _ _ h2, hQ.parse _ _ h3, bind, Except.bind]

theorem Guarded.some {ts : List Token} {g : Guard D} (h : Guarded Q ts g) : ∃ c e, g = .mk c (some e) := by
  cases h with
  | plain _ i h => exact ⟨_, _, rfl⟩
  | cond cs c ts i h1 h2 => exact ⟨_, _, rfl⟩

theorem parseGuard_nil : parseGuard (parseStatement ctx) [] = .ok (.mk none none, none) := rfl

theorem parseGuards_cons (parse : List Token → Res (Option (Item D))) (ts : List Token) (rest : List (List Token)) (hr : rest ≠ [])
    (g : Guard D) (gs : List (Guard D)) (h1 : parseGuard parse ts = .ok (g, none)) (h2 : parseGuards parse rest = .ok gs) :
    parseGuards parse (ts :: rest) = .ok (g :: gs) := by
  cases rest with
  | nil => exact absurd rfl hr
  | cons r rs => rw [parseGuards, h1]; simp [bind, Except.bind, h2]; simp

theorem Body.parse (hQ : GoodQ ctx Q) {ts : List Token} {gs : List (Guard D)} (h : Body Q ts gs) :
    ∃ gs', parseGuards (parseStatement ctx) (splitTokens .diamond [.leftBrace] [.rightBrace] 0 [] ts) = .ok gs' ∧ gs' ≠ [] ∧
      dropEmptyGuard gs' = gs := by
  induction h with
  | one ts g h =>
    have e1 := h.split hQ [] []
    rw [List.append_nil, List.nil_append, splitTokens] at e1
    obtain ⟨c, e, rfl⟩ := h.some
    refine ⟨[.mk c (some e)], ?_, by simp, by simp [dropEmptyGuard]⟩
    rw [e1, parseGuards, h.parse hQ]
    rfl
  | trail ts g h =>
    have e1 := h.split hQ [] [tDia]
    rw [List.nil_append, split_at .diamond _ _ _ tDia _ (by decide) (by decide) rfl, splitTokens] at e1
    refine ⟨[g, .mk none none], ?_, by simp, by simp [dropEmptyGuard]⟩
    rw [e1]
    refine parseGuards_cons _ _ _ (by simp) _ _ (h.parse hQ) ?_
    rw [parseGuards, parseGuard_nil]
    rfl
  | ternary cs c ts i us j h1 h2 h3 =>
    have e3 := split_q hQ .diamond (.inr rfl) h3 (cs ++ [tColon] ++ ts ++ [tColon]) []
    rw [List.append_nil, splitTokens] at e3
    have e1 : splitTokens .diamond [.leftBrace] [.rightBrace] 0 [] (cs ++ tColon :: (ts ++ tColon :: us)) =
        [cs ++ tColon :: (ts ++ tColon :: us)] := by
      rw [split_q hQ .diamond (.inr rfl) h1, List.nil_append, split_step _ _ _ _ _ _ _ (by decide) (by decide) (by decide),
        split_q hQ .diamond (.inr rfl) h2, split_step _ _ _ _ _ _ _ (by decide) (by decide) (by decide), e3]
      simp
    refine ⟨[.mk (some c.e) (some i.e), .mk none (some j.e)], ?_, by simp, by simp [dropEmptyGuard]⟩
    rw [e1, parseGuards, ternary_parse hQ h1 h2 h3]
    rfl
  | cons ts g us gs h _ ih =>
    obtain ⟨gs', e2, hne, e3⟩ := ih
    have e1 := h.split hQ [] (tDia :: us)
    rw [List.nil_append, split_at .diamond _ _ _ tDia _ (by decide) (by decide) rfl] at e1
    refine ⟨g :: gs', ?_, by simp, ?_⟩
    · rw [e1]; exact parseGuards_cons _ _ _ (splitTokens_ne _ _ _ _ _ _) _ _ (h.parse hQ) e2
    · cases gs' with
      | nil => exact absurd rfl hne
      | cons g' gs' =>
        rw [← e3]
        unfold dropEmptyGuard
        rw [List.getLast?_cons_cons]
        cases hl : (g' :: gs').getLast? with
        | none => simp at hl
        | some z =>
          rcases z with ⟨c, e⟩
          cases c <;> cases e <;> simp

theorem Body.ne (hQ : GoodQ ctx Q) {ts : List Token} {gs : List (Guard D)} (h : Body Q ts gs) : ts ≠ [] := by
  cases h with
  | one ts g h => cases h with
    | plain _ i h => exact hQ.ne _ _ h
    | cond cs c ts i h1 h2 => simp
  | trail ts g h => simp
  | ternary cs c ts i us j h1 h2 h3 => simp
  | cons ts g us gs h _ => simp

theorem Body.sub (hQ : GoodQ ctx Q) {ts : List Token} {gs : List (Guard D)} (h : Body Q ts gs) (more : List Token) :
    subStatement ctx (parseStatement ctx) .rightBrace (ts.reverse ++ tLC :: more) = .ok (⟨.fn (.lam (some gs)), .verb⟩, more) := by
  have hm := (h.nest hQ).matched tLC .leftBrace .rightBrace (.inr (.inr ⟨rfl, rfl⟩)) rfl more
  have hne := h.ne hQ
  obtain ⟨gs', e1, _, e2⟩ := h.parse hQ
  unfold subStatement
  simp only [if_true]
  rw [hm]
  cases ts with
  | nil => exact absurd rfl hne
  | cons t ts =>
    simp only [show (TT.leftBrace = TT.leftParen) = False by simp, show (TT.leftBrace = TT.leftBrack) = False by simp, if_false,
      parseLambda, e1, bind, Except.bind, e2]

/-! ### Vectors -/

theorem Elem.step {t : Token} {e : Expr D} (h : Elem ctx t e) (ar : Option (List (Expr D))) (more : List Token) :
    collectLoop ctx ar (t :: more) = collectLoop ctx (some (e :: ar.getD [])) more := by
  cases h with
  | number s n hn => rw [collectLoop]; simp only [hn]
  | string s => rw [collectLoop]
  | char c =>
    rw [collectLoop]
    simp
  | var s hv => rw [collectLoop]; simp only [hv]

theorem Elems.step {ts : List Token} {es : List (Expr D)} (h : Elems ctx ts es) (hne : ts ≠ []) (more : List Token) :
    collectLoop ctx none (ts.reverse ++ more) = collectLoop ctx (some es) more := by
  suffices H : ∀ more, collectLoop ctx none (ts.reverse ++ more) = collectLoop ctx (if ts = [] then none else some es) more by
    rw [H, if_neg hne]
  clear hne more
  induction h with
  | nil => intro more; rfl
  | cons t e ts es h1 h2 ih =>
    intro more
    rw [List.reverse_cons, List.append_assoc, ih, List.singleton_append, h1.step, if_neg (List.cons_ne_nil t ts)]
    cases h2 <;> simp

theorem collect_stop (ar : Option (List (Expr D))) (more : List Token) (h : ∀ t, more.head? = some t → strandTok ctx t = false) :
    collectLoop ctx ar more = .ok (ar, more) := by
  cases more with
  | nil => rfl
  | cons t ts =>
    have ht := h t rfl
    unfold strandTok at ht
    rw [collectLoop.eq_def]
    simp only
    split <;> simp_all

theorem Elem.tok {t : Token} {e : Expr D} (h : Elem ctx t e) : strandTok ctx t = true := by
  cases h <;> simp_all [strandTok]

theorem Elems.tok {ts : List Token} {es : List (Expr D)} (h : Elems ctx ts es) : ∀ t ∈ ts, strandTok ctx t = true := by
  induction h with
  | nil => simp
  | cons t e ts es h1 _ ih =>
    intro u hu
    rcases List.mem_cons.mp hu with rfl | hu
    · exact h1.tok
    · exact ih u hu

theorem Elems.len {ts : List Token} {es : List (Expr D)} (h : Elems ctx ts es) : es.length = ts.length := by
  induction h with
  | nil => rfl
  | cons t e ts es _ _ ih => simp [ih]

theorem Strand.tok {ts : List Token} {e : Expr D} (h : Strand ctx ts e) : ts ≠ [] ∧ ∀ t ∈ ts, strandTok ctx t = true := by
  cases h with
  | one t _ h => exact ⟨by simp, by simp [h.tok]⟩
  | many _ es hl h => exact ⟨fun e => by simp [e] at hl, h.tok⟩
  | chars s hl => exact ⟨by simp, by simp [strandTok]⟩
  | empty => exact ⟨by simp, by simp [strandTok]⟩

theorem Strand.collect {ts : List Token} {e : Expr D} (h : Strand ctx ts e) (more : List Token)
    (hm : ∀ t, more.head? = some t → strandTok ctx t = false) : collectArray ctx (ts.reverse ++ more) = .ok (⟨e, .noun⟩, more) := by
  unfold collectArray
  cases h with
  | one t _ h =>
    rw [List.reverse_singleton, List.singleton_append, h.step, collect_stop _ _ hm]
    rfl
  | many _ es hl h =>
    rw [h.step (fun e => by simp [e] at hl), collect_stop _ _ hm]
    have := h.len
    match es, this with
    | [], h => simp at h; omega
    | [_], h => simp at h; omega
    | a :: b :: r, _ => rfl
  | chars s hl =>
    rw [List.reverse_singleton, List.singleton_append, collectLoop]
    have h1 : s.toList.map (fun c => Expr.lit (ctx.str (String.ofList [c]))) ≠ [] := by
      intro h; rw [List.map_eq_nil_iff] at h; rw [h] at hl; simp at hl
    simp only [if_neg h1]
    rw [if_neg (by simp), collect_stop _ _ hm]
    simp only [bind, Except.bind, Option.getD_none, List.append_nil]
    match hs : s.toList, hl with
    | [], h => simp at h
    | [_], h => simp at h
    | a :: b :: r, _ => rfl
  | empty =>
    rw [List.reverse_singleton, List.singleton_append, collectLoop]
    simp only [show "".toList = [] from rfl, List.map_nil, if_true]
    rw [collect_stop _ _ hm]
    rfl

/-- a token of a vector is read by `collectArray` -/
theorem next_strand (parse : List Token → Res (Option (Item D))) (prev : Option (Item D)) (t : Token) (ts : List Token)
    (ht : strandTok ctx t = true) : nextItem ctx parse prev t ts = collectArray ctx (t :: ts) := by
  unfold strandTok at ht
  unfold nextItem
  split at ht <;> simp_all

theorem strand_endl (t : Token) (ht : strandTok ctx t = true) : plainTok t = true := by
  unfold strandTok at ht
  unfold plainTok
  split at ht <;> simp_all

/-! ### Atoms -/

theorem Atom.nest (hQ : GoodQ ctx Q) {ts : List Token} {i : Item D} (h : Atom ctx Q ts i) : Nest false false ts := by
  cases h with
  | prim s h => exact .plain _ _ _ _ rfl (.nil _ _)
  | mop s _ _ => exact .plain _ _ _ _ rfl (.nil _ _)
  | dop s _ _ => exact .plain _ _ _ _ rfl (.nil _ _)
  | jot _ _ => exact .plain _ _ _ _ rfl (.nil _ _)
  | fvar s _ => exact .plain _ _ _ _ rfl (.nil _ _)
  | self s => exact .plain _ _ _ _ rfl (.nil _ _)
  | strand _ e h =>
    have := h.tok.2
    clear h
    induction ts with
    | nil => exact .nil _ _
    | cons t ts ih => exact .plain _ _ _ _ (strand_endl t (this t (by simp))) (ih (fun u hu => this u (by simp [hu])))
  | paren ts i h => exact .paren _ _ _ _ ((hQ.nest _ _ h).mono _ _ (fun _ => rfl) id) (.nil _ _)
  | list ts es _ h => exact .paren _ _ _ _ (h.nest hQ) (.nil _ _)
  | lambda ts gs h => exact .brace _ _ _ _ (h.nest hQ) (.nil _ _)
  | lambda0 => exact .brace _ _ [] _ (.nil _ _) (.nil _ _)

theorem Atom.ne {ts : List Token} {i : Item D} (h : Atom ctx Q ts i) : ts ≠ [] := by
  cases h <;> simp_all
  rename_i h
  exact h.tok.1

theorem Strand.item {ts : List Token} {e : Expr D} (h : Strand ctx ts e) : isSpecE e = false ∧ isFnE e = false := by
  cases h with
  | one t _ h => cases h <;> exact ⟨rfl, rfl⟩
  | many _ es hl h => exact ⟨rfl, rfl⟩
  | chars s hl => exact ⟨rfl, rfl⟩
  | empty => exact ⟨rfl, rfl⟩

theorem Atom.item (hQ : GoodQ ctx Q) {ts : List Token} {i : Item D} (h : Atom ctx Q ts i) :
    isSpecE i.e = false ∧ (i.cls = .noun → isFnE i.e = false) := by
  cases h with
  | prim s h => exact ⟨rfl, fun h => by simp at h⟩
  | mop s _ _ => exact ⟨rfl, fun h => by simp at h⟩
  | dop s _ _ => exact ⟨rfl, fun h => by simp at h⟩
  | jot _ _ => exact ⟨rfl, fun h => by simp at h⟩
  | fvar s _ => exact ⟨rfl, fun h => by simp at h⟩
  | self s => exact ⟨rfl, fun h => by simp at h⟩
  | strand _ e h => exact ⟨h.item.1, fun _ => h.item.2⟩
  | paren ts i h => exact ⟨hQ.spec _ _ h, hQ.noun _ _ h⟩
  | list ts es _ h => exact ⟨rfl, fun _ => rfl⟩
  | lambda ts gs h => exact ⟨rfl, fun h => by simp at h⟩
  | lambda0 => exact ⟨rfl, fun h => by simp at h⟩

/-- `more` does not go on with the vector that starts with `ts` -/
def Apart (ctx : PCtx D) (more ts : List Token) : Prop :=
  ∀ s t, more.head? = some s → ts.head? = some t → ¬ (strandTok ctx s = true ∧ strandTok ctx t = true)

theorem Atom.next (hQ : GoodQ ctx Q) {ts : List Token} {i : Item D} (h : Atom ctx Q ts i) (prev : Option (Item D)) (more : List Token)
    (hm : Apart ctx more ts) (hj : jotOK ctx (ts, i) prev) :
    ∃ t r, ts.reverse ++ more = t :: r ∧ t.t ≠ .endl ∧ nextItem ctx (parseStatement ctx) prev t r = .ok (i, more) := by
  cases h with
  | prim s h =>
    refine ⟨_, more, rfl, by simp, ?_⟩
    unfold nextItem
    simp only [h, if_true]
  | mop s h1 h2 =>
    refine ⟨_, more, rfl, by simp, ?_⟩
    unfold nextItem
    simp only [h1, h2, Bool.false_eq_true, if_false]
    refine (if_neg ?_)
    rintro ⟨rfl, hd⟩
    exact absurd ((hj h1 rfl).mpr hd) (by simp)
  | dop s h1 h2 =>
    refine ⟨_, more, rfl, by simp, ?_⟩
    unfold nextItem
    simp only [h1, h2, Bool.false_eq_true, if_false, if_true]
    refine (if_neg ?_)
    rintro ⟨rfl, hd⟩
    exact absurd ((hj h1 rfl).mpr hd) (by simp)
  | jot h1 h2 =>
    refine ⟨_, more, rfl, by simp, ?_⟩
    unfold nextItem
    simp only [h1, h2, Bool.false_eq_true, if_false, if_true]
    exact if_pos ⟨trivial, (hj h1 rfl).mp rfl⟩
  | fvar s h =>
    refine ⟨_, more, rfl, by simp, ?_⟩
    unfold nextItem
    simp only [h]
  | self s => exact ⟨_, more, rfl, by simp, rfl⟩
  | strand _ e h =>
    have hm' : ∀ t, more.head? = some t → strandTok ctx t = false := by
      intro s hs
      have ⟨h1, h2⟩ := h.tok
      cases ts with
      | nil => exact absurd rfl h1
      | cons t ts =>
        have := hm s t hs rfl
        have h3 := h2 t (by simp)
        cases h4 : strandTok ctx s with
        | false => rfl
        | true => exact absurd ⟨h4, h3⟩ this
    have hc := h.collect more hm'
    have ⟨h1, h2⟩ := h.tok
    cases hr : ts.reverse with
    | nil => exact absurd (List.reverse_eq_nil_iff.mp hr) h1
    | cons t r =>
      have ht : strandTok ctx t = true := h2 t (by rw [← List.mem_reverse, hr]; simp)
      refine ⟨t, r ++ more, rfl, ?_, ?_⟩
      · intro e
        have := strand_endl t ht
        simp [plainTok, e] at this
      · rw [next_strand _ _ _ _ ht, ← hc, hr]; rfl
  | paren ts i h =>
    refine ⟨tRP, ts.reverse ++ tLP :: more, by simp, by simp, ?_⟩
    exact paren_sub hQ h more
  | list ts es hne h =>
    refine ⟨tRP, ts.reverse ++ tLP :: more, by simp, by simp, ?_⟩
    exact h.sub hQ hne more
  | lambda ts gs h =>
    refine ⟨tRC, ts.reverse ++ tLC :: more, by simp, by simp, ?_⟩
    exact h.sub hQ more
  | lambda0 =>
    refine ⟨tRC, tLC :: more, by simp, by simp, ?_⟩
    show subStatement ctx (parseStatement ctx) .rightBrace (tLC :: more) = _
    have hm := (Nest.nil false false).matched tLC .leftBrace .rightBrace (.inr (.inr ⟨rfl, rfl⟩)) rfl more
    unfold subStatement
    simp only [if_true]
    rw [List.reverse_nil, List.nil_append] at hm
    rw [hm]

/-! ### Pieces -/

theorem Piece.nest (hQ : GoodQ ctx Q) {ts : List Token} {i : Item D} (h : Piece ctx Q ts i) : Nest false false ts := by
  cases h with
  | atom _ _ h => exact h.nest hQ
  | index ts x bs es h hb => exact (h.nest hQ).append (.brack _ _ _ _ (hb.nest hQ) (.nil _ _))
  | axis s bs a h hne hb => exact .plain _ _ _ _ rfl (.brack _ _ _ _ (hb.nest hQ) (.nil _ _))

theorem Piece.ne {ts : List Token} {i : Item D} (h : Piece ctx Q ts i) : ts ≠ [] := by
  cases h with
  | atom _ _ h => exact h.ne
  | index ts x bs es h hb => simp
  | axis s bs a h hne hb => simp

theorem Piece.item (hQ : GoodQ ctx Q) {ts : List Token} {i : Item D} (h : Piece ctx Q ts i) :
    isSpecE i.e = false ∧ (i.cls = .noun → isFnE i.e = false) := by
  cases h with
  | atom _ _ h => exact h.item hQ
  | index ts x bs es h hb => exact ⟨rfl, fun _ => rfl⟩
  | axis s bs a h hne hb => exact ⟨rfl, fun h => by simp at h⟩

end Iv

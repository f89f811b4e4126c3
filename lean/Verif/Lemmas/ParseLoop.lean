import Verif.Lemmas.ParseAxis
/-
The loop over the pieces of a statement, from right to left (C46).
-/
namespace Iv
variable {D : Type}

/-! ### The loop -/

variable {ctx : PCtx D} {Q : List Token → Item D → Prop}

theorem stmtLoop_step (parse : List Token → Res (Option (Item D))) (n : Nat) (t : Token) (r more : List Token) (st : List (Item D)) (i : Item D)
    (ht : t.t ≠ .endl) (hn : (t :: r).length ≤ n) (h : nextItem ctx parse st.getLast? t r = .ok (i, more)) :
    stmtLoop ctx parse n (t :: r) st = (parseReduce false (st ++ [i]) >>= fun st => stmtLoop ctx parse more.length more st) := by
  cases n with
  | zero => simp at hn
  | succ n =>
    have hl := nextItem_length ctx parse _ t r more i h
    rw [stmtLoop.eq_def]
    simp only [if_neg ht, h, bind, Except.bind]
    split
    · rfl
    · rw [stmtLoop_fuel ctx parse n more _ (by simp at hn; omega)]

/-- a piece is pushed as one item -/
theorem Piece.push (hQ : GoodQ ctx Q) {ts : List Token} {i : Item D} (h : Piece ctx Q ts i) (st : List (Item D))
    (hst : ∀ j, st.getLast? = some j → j.isSpec = false) (more : List Token) (hm : Apart ctx more ts) (hj : jotOK ctx (ts, i) st.getLast?) :
    stmtLoop ctx (parseStatement ctx) (ts.reverse ++ more).length (ts.reverse ++ more) st =
      (parseReduce false (st ++ [i]) >>= fun st => stmtLoop ctx (parseStatement ctx) more.length more st) := by
  cases h with
  | atom _ _ h =>
    obtain ⟨t, r, e1, e2, e3⟩ := h.next hQ st.getLast? more hm hj
    rw [e1]
    exact stmtLoop_step _ _ _ _ _ _ _ e2 (Nat.le_refl _) e3
  | index ts x bs es h hb =>
    have hi := h.item hQ
    have hm' : Apart ctx more ts := by
      intro s t hs ht
      refine hm s t hs ?_
      rw [List.head?_append, ht]; rfl
    have hj' : jotOK ctx (ts, ⟨x, .noun⟩) (st ++ [(⟨.spec es, .adverb⟩ : Item D)]).getLast? := by
      intro _ hts
      rw [List.getLast?_append]
      simp [isDot]
    have e0 : (ts ++ tLB :: (bs ++ [tRB])).reverse ++ more = tRB :: (bs.reverse ++ tLB :: (ts.reverse ++ more)) := by simp
    rw [e0, stmtLoop_step (ctx := ctx) _ _ tRB _ _ st _ (by decide) (Nat.le_refl _) (show nextItem ctx (parseStatement ctx) _ tRB _ = _ from hb.parse hQ _), push_spec]
    simp only [bind, Except.bind]
    obtain ⟨t, r, e1, e2, e3⟩ := h.next hQ (st ++ [(⟨.spec es, .adverb⟩ : Item D)]).getLast? more hm' hj'
    rw [e1, stmtLoop_step _ _ _ _ _ _ _ e2 (Nat.le_refl _) e3,
      push_resolved st hst _ _ ⟨.app (.prim "⌷") (some (.spec es)) x false, .noun⟩ (by rw [Item.isSpec_eq]; exact hi.1) rfl
        (resolve_index x (hi.2 rfl) es)]
    rfl
  | axis s bs a h hne hb =>
    have e0 : (⟨.symbol, s⟩ :: tLB :: (bs ++ [tRB])).reverse ++ more = tRB :: (bs.reverse ++ tLB :: (⟨.symbol, s⟩ :: more)) := by simp
    rw [e0, stmtLoop_step (ctx := ctx) _ _ tRB _ _ st _ (by decide) (Nat.le_refl _)
      (show nextItem ctx (parseStatement ctx) _ tRB _ = _ from (Brackets.slots _ _ hne hb).parse hQ _), push_spec]
    simp only [bind, Except.bind]
    obtain ⟨t, r, e1, e2, e3⟩ := (Atom.prim (Q := Q) s h).next hQ (st ++ [(⟨.spec [a], .adverb⟩ : Item D)]).getLast? more
      (by intro u v _ hv; simp at hv; subst hv; simp [strandTok])
      (by intro hp hts; simp at hts; subst hts; simp [h] at hp)
    rw [show (⟨.symbol, s⟩ : Token) :: more = [(⟨.symbol, s⟩ : Token)].reverse ++ more from rfl]
    rw [e1, stmtLoop_step _ _ _ _ _ _ _ e2 (Nat.le_refl _) e3,
      push_resolved st hst _ _ ⟨.fn (.der "⍂" (some (.fn (.prim s))) (some a)), .verb⟩ rfl rfl (resolve_axis s a)]
    rfl

theorem Slots.one_item (hQ : GoodQ ctx Q) {bs : List Token} {a : Expr D} (hne : bs ≠ []) (h : Slots ctx Q bs [a]) : isSpecE a = false := by
  cases h with
  | one _ _ h =>
    cases h with
    | none => exact absurd rfl hne
    | some _ i h => exact hQ.spec _ _ h
  | cons _ _ _ _ _ h => cases h

/-- the items of pieces are no index specifications, nouns are no functions -/
theorem Pieces.item (hQ : GoodQ ctx Q) {ps : List (List Token × Item D)} (h : Pieces ctx Q ps) :
    ∀ p ∈ ps, isSpecE p.2.e = false ∧ (p.2.cls = .noun → isFnE p.2.e = false) := by
  induction h with
  | nil => simp
  | cons p ps hp _ ih =>
    intro q hq
    rcases List.mem_cons.mp hq with rfl | hq
    · exact hp.item hQ
    · exact ih q hq
  | opAxis ts op lo ro c bs a ps ht hne hs hf _ _ ih =>
    intro q hq
    simp only [List.mem_cons] at hq
    rcases hq with rfl | rfl | rfl | hq
    · exact ht.item hQ
    · exact ⟨rfl, fun h => by simp at h⟩
    · exact ⟨hs.one_item hQ hne, fun _ => hf⟩
    · exact ih q hq

theorem Pieces.toks_ne {ps : List (List Token × Item D)} (h : Pieces ctx Q ps) : ∀ p ∈ ps, p.1 ≠ [] := by
  induction h with
  | nil => simp
  | cons p ps hp _ ih =>
    intro q hq
    rcases List.mem_cons.mp hq with rfl | hq
    · exact hp.ne
    · exact ih q hq
  | opAxis ts op lo ro c bs a ps ht hne hs hf _ _ ih =>
    intro q hq
    simp only [List.mem_cons] at hq
    rcases hq with rfl | rfl | rfl | hq
    · exact ht.ne
    · simp
    · simp
    · exact ih q hq

theorem Pieces.nest (hQ : GoodQ ctx Q) {ps : List (List Token × Item D)} (h : Pieces ctx Q ps) : Nest false false (ps.map Prod.fst).flatten := by
  induction h with
  | nil => exact .nil _ _
  | cons p ps hp _ ih => exact (hp.nest hQ).append ih
  | opAxis ts op lo ro c bs a ps ht hne hs hf _ _ ih =>
    have : (((ts, (⟨.fn (.der op lo ro), c⟩ : Item D)) :: ([tLB], ⟨.fn (.der "⍂" none none), .conj⟩) :: (bs ++ [tRB], ⟨a, .noun⟩) :: ps).map
        Prod.fst).flatten = ts ++ tLB :: (bs ++ tRB :: (ps.map Prod.fst).flatten) := by simp
    rw [this]
    exact (ht.nest hQ).append (.brack _ _ _ _ (hs.nest hQ) ih)

/-- pieces without an axis behind an operator -/
theorem Pieces.all {ps : List (List Token × Item D)} (h : ∀ p ∈ ps, Piece ctx Q p.1 p.2) : Pieces ctx Q ps := by
  induction ps with
  | nil => exact .nil
  | cons p ps ih => exact .cons p ps (h p (by simp)) (ih (fun q hq => h q (by simp [hq])))

theorem Adjacent.tail_ (p : List Token × Item D) (ps : List (List Token × Item D)) (h : Adjacent ctx (p :: ps)) : Adjacent ctx ps := by
  cases ps with
  | nil => trivial
  | cons q r => exact h.2.2

theorem Adjacent.jot_ (p : List Token × Item D) (ps : List (List Token × Item D)) (h : Adjacent ctx (p :: ps)) :
    jotOK ctx p (ps.head?.map Prod.snd) := by
  cases ps with
  | nil => exact h
  | cons q r => exact h.2.1

/-- what is known of the stack, `is` are the items that were put on it, the leftmost one first -/
def StackInv (is st : List (Item D)) : Prop :=
  st.getLast? = is.head? ∧ (opAt is 1 = false → opAt st.reverse 1 = false)

theorem StackInv.push {is st : List (Item D)} (h : StackInv is st) (his : ∀ i ∈ is, i.isSpec = false) (i : Item D) (hi : i.isSpec = false)
    (st' : List (Item D)) (h' : parseReduce false (st ++ [i]) = .ok st') : StackInv (i :: is) st' := by
  have hst : ∀ j, st.getLast? = some j → j.isSpec = false := by
    intro j hj
    rw [h.1] at hj
    exact his j (List.mem_of_mem_head? hj)
  refine ⟨by rw [parseReduce_keeps st i hi hst st' h']; rfl, fun ho => ?_⟩
  refine parseReduce_second st i hi hst ?_ st' h'
  intro j hj
  rw [h.1, List.head?_eq_getElem?] at hj
  simpa [opAt, hj] using ho

theorem StackInv.pushAll_ {is st : List (Item D)} (h : StackInv is st) (his : ∀ i ∈ is, i.isSpec = false) (js : List (Item D))
    (hjs : ∀ i ∈ js, i.isSpec = false) (st' : List (Item D)) (h' : pushAll js st = .ok st') : StackInv (js.reverse ++ is) st' := by
  induction js generalizing is st with
  | nil => simp only [pushAll, Except.ok.injEq] at h'; subst h'; simpa using h
  | cons j js ih =>
    simp only [pushAll, bind, Except.bind] at h'
    cases hr : parseReduce false (st ++ [j]) with
    | error e => simp [hr] at h'
    | ok s =>
      simp only [hr] at h'
      have hj := hjs j (by simp)
      have := ih (h.push his j hj s hr) (by
        intro i hi
        rcases List.mem_cons.mp hi with rfl | hi
        · exact hj
        · exact his i hi) (fun i hi => hjs i (by simp [hi])) h'
      simpa using this

/-- three items of an operator with an axis -/
theorem opAxis_push (hQ : GoodQ ctx Q) {ts : List Token} {op : String} {lo ro : Option (Expr D)} {c : Cls} {bs : List Token} {a : Expr D}
    (ht : Atom ctx Q ts ⟨.fn (.der op lo ro), c⟩) (hne : bs ≠ []) (hs : Slots ctx Q bs [a]) (st : List (Item D))
    (hst : ∀ j, st.getLast? = some j → j.isSpec = false) (h1 : opAt st.reverse 1 = false) (more : List Token) (hm : Apart ctx more ts)
    (hj : jotOK ctx (ts, ⟨.fn (.der op lo ro), c⟩) (some (⟨.fn (.der "⍂" none none), .conj⟩ : Item D))) :
    stmtLoop ctx (parseStatement ctx) ((ts ++ tLB :: (bs ++ [tRB])).reverse ++ more).length ((ts ++ tLB :: (bs ++ [tRB])).reverse ++ more) st =
      (pushAll [⟨a, .noun⟩, ⟨.fn (.der "⍂" none none), .conj⟩, ⟨.fn (.der op lo ro), c⟩] st >>= fun st =>
        stmtLoop ctx (parseStatement ctx) more.length more st) := by
  have e0 : (ts ++ tLB :: (bs ++ [tRB])).reverse ++ more = tRB :: (bs.reverse ++ tLB :: (ts.reverse ++ more)) := by simp
  rw [e0, stmtLoop_step (ctx := ctx) _ _ tRB _ _ st _ (by decide) (Nat.le_refl _)
    (show nextItem ctx (parseStatement ctx) _ tRB _ = _ from (Brackets.slots _ _ hne hs).parse hQ _), push_spec]
  simp only [bind, Except.bind]
  have hj' : jotOK ctx (ts, ⟨.fn (.der op lo ro), c⟩) (st ++ [(⟨.spec [a], .adverb⟩ : Item D)]).getLast? := by
    intro hp hts
    have := hj hp hts
    rw [List.getLast?_append]
    simpa [isDot] using this
  obtain ⟨t, r, e1, e2, e3⟩ := ht.next hQ (st ++ [(⟨.spec [a], .adverb⟩ : Item D)]).getLast? more hm hj'
  rw [e1, stmtLoop_step _ _ _ _ _ _ _ e2 (Nat.le_refl _) e3, push_op_axis st hst h1 op lo ro c a (hs.one_item hQ hne)]
  rfl

theorem pieces_loop (hQ : GoodQ ctx Q) (ps : List (List Token × Item D)) (hps : Pieces ctx Q ps) (ha : Adjacent ctx ps) :
    (∀ more, (∀ p, ps.head? = some p → Apart ctx more p.1) →
      stmtLoop ctx (parseStatement ctx) ((ps.map Prod.fst).flatten.reverse ++ more).length ((ps.map Prod.fst).flatten.reverse ++ more) [] =
        (pushAll (ps.map Prod.snd).reverse [] >>= fun st => stmtLoop ctx (parseStatement ctx) more.length more st)) ∧
    ∀ st, pushAll (ps.map Prod.snd).reverse [] = .ok st → StackInv (ps.map Prod.snd) st := by
  have hall : ∀ ps : List (List Token × Item D), Pieces ctx Q ps → ∀ i ∈ ps.map Prod.snd, i.isSpec = false := by
    intro ps h i hi
    obtain ⟨p, hp, rfl⟩ := List.mem_map.mp hi
    rw [Item.isSpec_eq]
    exact (h.item hQ p hp).1
  have hinv : ∀ st, pushAll (ps.map Prod.snd).reverse [] = .ok st → StackInv (ps.map Prod.snd) st := by
    intro st h
    have := StackInv.pushAll_ (is := []) (st := []) ⟨rfl, fun _ => rfl⟩ (by simp) (ps.map Prod.snd).reverse
      (by intro i hi; exact hall ps hps i (List.mem_reverse.mp hi)) st h
    simpa using this
  have hlast : ∀ ps : List (List Token × Item D), Pieces ctx Q ps → ∀ st, StackInv (ps.map Prod.snd) st → ∀ j, st.getLast? = some j → j.isSpec = false := by
    intro ps h st hi j hj
    rw [hi.1] at hj
    exact hall ps h j (List.mem_of_mem_head? hj)
  refine ⟨?_, hinv⟩
  clear hinv
  induction hps with
  | nil =>
    intro more _
    simp [pushAll, bind, Except.bind]
  | cons p ps hp hps ih =>
    intro more hm
    have e1 : ((p :: ps).map Prod.fst).flatten.reverse ++ more = (ps.map Prod.fst).flatten.reverse ++ (p.1.reverse ++ more) := by simp
    have e2 : ((p :: ps).map Prod.snd).reverse = (ps.map Prod.snd).reverse ++ [p.2] := by simp
    have hap : ∀ q, ps.head? = some q → Apart ctx (p.1.reverse ++ more) q.1 := by
      intro q hq s t hs ht
      cases ps with
      | nil => simp at hq
      | cons q' r =>
        simp at hq
        subst hq
        refine ha.1 s t ?_ ht
        rw [List.head?_append, List.head?_reverse] at hs
        have := hp.ne
        cases hl : p.1.getLast? with
        | none => rw [List.getLast?_eq_none_iff] at hl; exact absurd hl this
        | some u => rw [hl] at hs; simpa using hs
    rw [e1, e2, ih (Adjacent.tail_ _ _ ha) _ hap, pushAll_append]
    simp only [bind, Except.bind]
    cases hr : pushAll (ps.map Prod.snd).reverse [] with
    | error e => rfl
    | ok st =>
      have hi : StackInv (ps.map Prod.snd) st := by
        have := StackInv.pushAll_ (is := []) (st := []) ⟨rfl, fun _ => rfl⟩ (by simp) (ps.map Prod.snd).reverse
          (by intro i hi; exact hall ps hps i (List.mem_reverse.mp hi)) st hr
        simpa using this
      simp only
      rw [hp.push hQ st (hlast ps hps st hi) more (hm p rfl) (by
        rw [hi.1, List.head?_map]; exact Adjacent.jot_ _ _ ha)]
      simp only [pushAll, bind, Except.bind]
      cases parseReduce false (st ++ [p.2]) <;> rfl
  | opAxis ts op lo ro c bs a ps ht hne hs hf hq hps ih =>
    intro more hm
    have e1 : (((ts, (⟨.fn (.der op lo ro), c⟩ : Item D)) :: ([tLB], ⟨.fn (.der "⍂" none none), .conj⟩) :: (bs ++ [tRB], ⟨a, .noun⟩) :: ps).map
        Prod.fst).flatten.reverse ++ more = (ps.map Prod.fst).flatten.reverse ++ ((ts ++ tLB :: (bs ++ [tRB])).reverse ++ more) := by simp
    have e2 : (((ts, (⟨.fn (.der op lo ro), c⟩ : Item D)) :: ([tLB], ⟨.fn (.der "⍂" none none), .conj⟩) :: (bs ++ [tRB], ⟨a, .noun⟩) :: ps).map
        Prod.snd).reverse = (ps.map Prod.snd).reverse ++ [⟨a, .noun⟩, ⟨.fn (.der "⍂" none none), .conj⟩, ⟨.fn (.der op lo ro), c⟩] := by simp
    have hap : ∀ q, ps.head? = some q → Apart ctx ((ts ++ tLB :: (bs ++ [tRB])).reverse ++ more) q.1 := by
      intro q hq s t hs ht
      simp at hs
      subst hs
      simp [strandTok]
    have ha' : Adjacent ctx ps := Adjacent.tail_ _ _ (Adjacent.tail_ _ _ (Adjacent.tail_ _ _ ha))
    rw [e1, e2, ih ha' _ hap, pushAll_append]
    simp only [bind, Except.bind]
    cases hr : pushAll (ps.map Prod.snd).reverse [] with
    | error e => rfl
    | ok st =>
      have hi : StackInv (ps.map Prod.snd) st := by
        have := StackInv.pushAll_ (is := []) (st := []) ⟨rfl, fun _ => rfl⟩ (by simp) (ps.map Prod.snd).reverse
          (by intro i hi; exact hall ps hps i (List.mem_reverse.mp hi)) st hr
        simpa using this
      simp only
      have h1 : opAt st.reverse 1 = false := by
        refine hi.2 ?_
        unfold opAt
        rw [List.getElem?_map]
        cases hq1 : ps[1]? with
        | none => rfl
        | some q => exact hq q hq1
      rw [opAxis_push hQ ht hne hs st (hlast ps hps st hi) h1 more (hm _ rfl) (Adjacent.jot_ _ _ ha)]
      rfl

/-- a statement is parsed by pushing its items -/
theorem pieces_parse (hQ : GoodQ ctx Q) (ps : List (List Token × Item D)) (hps : Pieces ctx Q ps) (ha : Adjacent ctx ps)
    (hne : ps ≠ []) :
    parseStatement ctx (ps.map Prod.fst).flatten = (pushAll (ps.map Prod.snd).reverse [] >>= finishStatement) := by
  rw [parseStatement_eq]
  obtain ⟨h1, h2⟩ := pieces_loop hQ ps hps ha
  have := h1 [] (by intro p _ s t hs; simp at hs)
  rw [List.append_nil, List.length_reverse] at this
  rw [this]
  simp only [bind, Except.bind]
  cases hr : pushAll (ps.map Prod.snd).reverse [] with
  | error e => rfl
  | ok st =>
    have hi := (h2 st hr).1
    cases st with
    | nil =>
      cases ps with
      | nil => exact absurd rfl hne
      | cons p ps => simp at hi
    | cons x xs => rfl

/-! ### Words of pieces -/

theorem mem_wordsItems (ws : List (Word D)) (w : Word D) (hw : w ∈ ws) (i : Item D) (hi : i ∈ w.items) : i ∈ wordsItems ws := by
  induction ws with
  | nil => simp at hw
  | cons v ws ih =>
    rw [wordsItems]
    rcases List.mem_cons.mp hw with rfl | hw
    · exact List.mem_append_left _ hi
    · exact List.mem_append_right _ (ih hw)

theorem mem_opsItems (ops : List (OpUse D)) (o : OpUse D) (ho : o ∈ ops) (i : Item D) (hi : i ∈ o.items) : i ∈ opsItems ops := by
  induction ops with
  | nil => simp at ho
  | cons p ops ih =>
    rw [opsItems]
    rcases List.mem_cons.mp ho with rfl | ho
    · exact List.mem_append_left _ hi
    · exact List.mem_append_right _ (ih ho)

theorem words_ok (hQ : GoodQ ctx Q) (ps : List (List Token × Item D)) (hps : Pieces ctx Q ps) (ws : List (Word D))
    (e : ps.map Prod.snd = wordsItems ws) : ∀ w ∈ ws, w.ok = true := by
  intro w hw
  have hall : ∀ i ∈ w.items, isSpecE i.e = false ∧ (i.cls = .noun → isFnE i.e = false) := by
    intro i hi
    have := mem_wordsItems ws w hw i hi
    rw [← e] at this
    obtain ⟨p, hp, rfl⟩ := List.mem_map.mp this
    exact hps.item hQ p hp
  have h0 := hall ⟨w.p, clsOf w.isVerb⟩ (by simp [Word.items])
  simp only [Word.ok, Bool.and_eq_true, Bool.not_eq_true', Bool.or_eq_true, List.all_eq_true]
  refine ⟨⟨h0.1, ?_⟩, ?_⟩
  · cases hv : w.isVerb with
    | true => exact .inl rfl
    | false => exact .inr (h0.2 (by simp [hv, clsOf]))
  · intro o ho
    cases o with
    | mop s => rfl
    | dop s q b =>
      have := hall ⟨q, clsOf b⟩ (by
        rw [Word.items]
        exact List.mem_cons_of_mem _ (mem_opsItems w.ops _ ho _ (by simp [OpUse.items])))
      simp [OpUse.ok, this.1]

/-! ### Statements -/

theorem wordsItems_ne (ps : List (List Token × Item D)) (w : Word D) (ws : List (Word D)) (e : ps.map Prod.snd = wordsItems (w :: ws)) :
    ps ≠ [] := by
  rintro rfl
  simp [wordsItems, Word.items] at e

theorem flatten_ne (hps : List (List Token × Item D)) (h : Pieces ctx Q hps) (hne : hps ≠ []) :
    (hps.map Prod.fst).flatten ≠ [] := by
  cases hps with
  | nil => exact absurd rfl hne
  | cons p ps =>
    have := h.toks_ne p (by simp)
    simp [this]

theorem Phrase.good (hQ : GoodQ ctx Q) : GoodQ ctx (Phrase ctx Q) where
  parse := by
    intro ts i h
    cases h with
    | value ps ws e hp ha he hs hsc =>
      cases ws with
      | nil => simp [scope] at hsc
      | cons w ws =>
        rw [pieces_parse hQ ps hp ha (wordsItems_ne ps w ws he), he]
        exact parse_words w ws e hsc (words_ok hQ ps hp _ he) hs
    | func ps ws f hp ha he hs hv hz hna hf =>
      cases ws with
      | nil => simp [funScope] at hf
      | cons w ws =>
        rw [pieces_parse hQ ps hp ha (wordsItems_ne ps w ws he), he,
          parse_words_fun w ws hv (words_ok hQ ps hp _ he) (fun hne z hzz => hz z (by cases ws <;> simp_all) (by
            cases ws with
            | nil => simp at hzz
            | cons v vs => rwa [List.getLast?_cons_cons])) hs]
        have : funItem (w :: ws) = ⟨f, .verb⟩ := by simp [funItem, hf]
        rw [this]
        congr 2
        unfold linkFuncAssign
        split
        · rename_i op lo ro g hfg
          split
          · rename_i hop
            subst hop
            exact absurd hfg (hna lo ro g)
          · rfl
        · rfl
    | assign ps a g lo ro hp ha he hn hva hvg hae hz =>
      rw [pieces_parse hQ ps hp ha (wordsItems_ne ps a [g] he), he,
        parse_words_fun a [g] (by simp [hva, hvg]) (words_ok hQ ps hp _ he) (fun _ z hzz => by
          simp at hzz; subst hzz; exact hz) (by exact ⟨hn, by simp, trivial⟩)]
      rw [funItem_cons]
      simp [linkFuncAssign, hae]
    | fork ps w ws hp ha he hs hw hv hz hne heven =>
      rw [pieces_parse hQ ps hp ha (wordsItems_ne ps w ws he), he,
        parse_words_fork w ws hw hv (words_ok hQ ps hp _ he) hz hs hne heven]
      congr 2
      unfold linkFuncAssign
      match ws, heven, hne with
      | [_], h, _ => simp at h
      | a :: b :: r, _, _ => simp
  nest := by
    intro ts i h
    cases h with
    | value ps ws e hp => exact hp.nest hQ
    | func ps ws f hp => exact hp.nest hQ
    | assign ps a g lo ro hp => exact hp.nest hQ
    | fork ps w ws hp => exact hp.nest hQ
  ne := by
    intro ts i h
    cases h with
    | value ps ws e hp ha he hs hsc =>
      cases ws with
      | nil => simp [scope] at hsc
      | cons w ws => exact flatten_ne ps hp (wordsItems_ne ps w ws he)
    | func ps ws f hp ha he hs hv hz hna hf =>
      cases ws with
      | nil => simp [funScope] at hf
      | cons w ws => exact flatten_ne ps hp (wordsItems_ne ps w ws he)
    | assign ps a g lo ro hp ha he => exact flatten_ne ps hp (wordsItems_ne ps a [g] he)
    | fork ps w ws hp ha he => exact flatten_ne ps hp (wordsItems_ne ps w ws he)
  spec := by
    intro ts i h
    cases h with
    | value ps ws e hp ha he hs hsc => exact scope_noSpec ws (words_ok hQ ps hp _ he) e hsc
    | func ps ws f hp ha he hs hv hz hna hf =>
      match ws, hf, he with
      | [], hf, _ => simp [funScope] at hf
      | [w], hf, he =>
        simp [funScope] at hf
        rw [← hf]
        exact word_e_spec w (words_ok hQ ps hp _ he w (by simp))
      | w :: v :: vs, hf, _ =>
        simp [funScope] at hf
        rw [← hf]; rfl
    | assign ps a g lo ro hp ha he => rfl
    | fork ps w ws hp ha he => rfl
  noun := by
    intro ts i h hc
    cases h with
    | value ps ws e hp ha he hs hsc =>
      cases ws with
      | nil => simp [scope] at hsc
      | cons w ws => exact scope_not_fn w ws (words_ok hQ ps hp _ he w (by simp)) e hsc
    | func => simp at hc
    | assign => simp at hc
    | fork => simp at hc

theorem Statement.good (n : Nat) : GoodQ ctx (Statement ctx n) := by
  induction n with
  | zero => exact ⟨fun _ _ h => h.elim, fun _ _ h => h.elim, fun _ _ h => h.elim, fun _ _ h => h.elim, fun _ _ h => h.elim⟩
  | succ n ih => exact Phrase.good ih

end Iv

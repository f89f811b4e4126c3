import Verif.Lemmas.ParseRun
/-
The parser on the items of words (for C46).
-/
namespace Iv
variable {D : Type}

def OpUse.ok : OpUse D → Bool
  | .mop _ => true
  | .dop _ q _ => !isSpecE q

/-- operands are no index specifications, nouns are no functions -/
def Word.ok (w : Word D) : Bool := !isSpecE w.p && (w.isVerb || !isFnE w.p) && w.ops.all OpUse.ok

/-- push items one after the other (the rightmost item of the statement first) -/
def pushAll : List (Item D) → List (Item D) → Res (List (Item D))
  | [], st => .ok st
  | i :: is, st => do
    let st ← parseReduce false (st ++ [i])
    pushAll is st

theorem pushAll_append (a b : List (Item D)) (st : List (Item D)) :
    pushAll (a ++ b) st = (pushAll a st >>= fun st => pushAll b st) := by
  induction a generalizing st with
  | nil => rfl
  | cons i is ih =>
    simp only [List.cons_append, pushAll]
    cases parseReduce false (st ++ [i]) with
    | error e => rfl
    | ok st' => exact ih st'

theorem Item.isSpec_eq (i : Item D) : i.isSpec = isSpecE i.e := by
  unfold Item.isSpec isSpecE; split <;> split <;> simp_all

/-- no item is an index specification -/
def NoSpec (l : List (Item D)) : Prop := ∀ i ∈ l, i.isSpec = false

theorem resolveBrackets_id (l : Item D) (ls : List (Item D)) (h : NoSpec ls) : resolveBrackets (l :: ls) = .ok (l :: ls) := by
  cases ls with
  | nil => rfl
  | cons s rest =>
    have := h s (by simp)
    unfold Item.isSpec at this
    unfold resolveBrackets
    split
    · rename_i heq
      cases heq
      split
      · rename_i he; rw [he] at this; simp at this
      · rfl
    · rename_i h'; exact absurd rfl (h' _ _ _)

theorem reduceTrains_noun (last : Bool) (n : Nat) (a : Expr D) (rest : List (Item D)) :
    reduceTrains last n (N a :: rest) = N a :: rest := by
  cases n with
  | zero => rfl
  | succ n =>
    unfold reduceTrains
    have : reduceff last (N a :: rest) = none := by
      cases rest with
      | nil => rfl
      | cons r1 rest => unfold reduceff; exact if_neg (by simp)
    rw [this]

theorem parseReduce_false (l : Item D) (ls ls' st' : List (Item D)) (a : Expr D) (rest : List (Item D)) (hl : l.isSpec = false)
    (hs : NoSpec ls) (h1 : resolveOperators false (l :: ls).length (l :: ls) = .ok ls')
    (h2 : resolveArrays false ls'.length ls'.reverse = .ok st') (h3 : st' = N a :: rest) :
    parseReduce false (l :: ls).reverse = .ok st' := by
  unfold parseReduce
  rw [List.reverse_reverse]
  simp only [hl, Bool.false_eq_true, if_false, resolveBrackets_id l ls hs, bind, Except.bind, h1, h2, Bool.false_and]
  subst h3
  simp only [resolveFunctions, reduceTrains_noun]
  rfl

theorem noSpec_append (a b : List (Item D)) (ha : NoSpec a) (hb : NoSpec b) : NoSpec (a ++ b) := by
  intro i hi
  rcases List.mem_append.mp hi with h | h
  · exact ha i h
  · exact hb i h

theorem noSpec_reverse (a : List (Item D)) (ha : NoSpec a) : NoSpec a.reverse := fun i hi => ha i (List.mem_reverse.mp hi)

theorem opsItems_noSpec (ops : List (OpUse D)) (h : ops.all OpUse.ok = true) : NoSpec (opsItems ops) := by
  induction ops with
  | nil => intro i hi; simp [opsItems] at hi
  | cons o os ih =>
    simp only [List.all_cons, Bool.and_eq_true] at h
    refine noSpec_append _ _ ?_ (ih h.2)
    intro i hi
    cases o with
    | mop s => simp only [OpUse.items, List.mem_singleton] at hi; subst hi; rfl
    | dop s q b =>
      simp only [OpUse.items, List.mem_cons, List.not_mem_nil, or_false] at hi
      rcases hi with h' | h'
      · subst h'; rfl
      · subst h'
        rw [Item.isSpec_eq]
        simpa [OpUse.ok] using h.1

theorem items_noSpec (w : Word D) (h : w.ok = true) : NoSpec w.items := by
  simp only [Word.ok, Bool.and_eq_true, Bool.not_eq_true'] at h
  intro i hi
  rcases List.mem_cons.mp hi with h' | h'
  · subst h'; rw [Item.isSpec_eq]; exact h.1.1
  · exact opsItems_noSpec _ h.2 i h'

theorem derive_fn (f : Func D) (ops : List (OpUse D)) : ∃ g, derive (.fn f) ops = .fn g := by
  induction ops generalizing f with
  | nil => exact ⟨f, rfl⟩
  | cons o os ih => cases o <;> exact ih _

theorem word_e_spec (w : Word D) (h : w.ok = true) : isSpecE w.e = false := by
  simp only [Word.ok, Bool.and_eq_true, Bool.not_eq_true'] at h
  unfold Word.e
  cases hops : w.ops with
  | nil => exact h.1.1
  | cons o os =>
    cases o with
    | mop s => obtain ⟨g, hg⟩ := derive_fn (.der s (some w.p) none) os; rw [derive, hg]; rfl
    | dop s q b => obtain ⟨g, hg⟩ := derive_fn (.der s (some w.p) (some q)) os; rw [derive, hg]; rfl

theorem item_noSpec (w : Word D) (h : w.ok = true) : w.item.isSpec = false := by
  rw [Item.isSpec_eq]; exact word_e_spec w h

theorem scope_noSpec (ws : List (Word D)) (h : ∀ w ∈ ws, w.ok = true) (e : Expr D) (hs : scope ws = some e) : isSpecE e = false := by
  cases ws with
  | nil => simp [scope] at hs
  | cons w ws =>
    cases hv : w.verb with
    | true => obtain ⟨f, r, _, _, he⟩ := scope_verb w ws e hs hv; rw [he]; rfl
    | false =>
      rcases scope_noun w ws e hs hv with ⟨_, he⟩ | ⟨v, vs, f, r, _, _, _, _, he⟩
      · rw [he]; exact word_e_spec w (h w (by simp))
      · rw [he]; rfl

theorem Rep.noSpec {c : Cls} {ws : List (Word D)} {core : List (Item D)} (h : Rep c ws core) (hok : ∀ w ∈ ws, w.ok = true) :
    NoSpec core := by
  cases h with
  | all _ a hs _ =>
    intro i hi; simp only [List.mem_singleton] at hi; subst hi
    rw [Item.isSpec_eq]; exact scope_noSpec ws hok a hs
  | verb v ws a f hv hf hs =>
    intro i hi; simp only [List.mem_cons, List.not_mem_nil, or_false] at hi
    rcases hi with h | h <;> subst h
    · rw [Item.isSpec_eq]; exact scope_noSpec ws (fun w hw => hok w (by simp [hw])) a hs
    · rfl
  | noun m v ws a f hm hv hf hs =>
    intro i hi; simp only [List.mem_cons, List.not_mem_nil, or_false] at hi
    rcases hi with h | h | h <;> subst h
    · rw [Item.isSpec_eq]; exact scope_noSpec ws (fun w hw => hok w (by simp [hw])) a hs
    · rfl
    · rw [Item.isSpec_eq]; exact word_e_spec m (hok m (by simp))

theorem Rep.head {c : Cls} {ws : List (Word D)} {core : List (Item D)} (h : Rep c ws core) : ∃ a rest, core = N a :: rest := by
  cases h
  · exact ⟨_, _, rfl⟩
  · exact ⟨_, _, rfl⟩
  · exact ⟨_, _, rfl⟩

/-- The class of the last item of a list of items. -/
def lastCls (l : List (Item D)) : Cls := ((l.getLast?).map Item.cls).getD .noun

/-- push an item to the items of an incomplete phrase -/
theorem push_grow (x y : Item D) (ys : List (Item D)) (hop : x.cls.isOp = true ∨ y.cls.isOp = true)
    (ht : TailOK (x :: y :: ys).reverse) (hns : NoSpec (x :: y :: ys)) (ws : List (Word D)) (hok : ∀ w ∈ ws, w.ok = true)
    (core : List (Item D)) (h : Rep (lastCls (y :: ys)) ws core) :
    ∃ core', parseReduce false (core ++ (y :: ys).reverse ++ [x]) = .ok (core' ++ (x :: y :: ys).reverse) ∧
      Rep (lastCls (y :: ys)) ws core' := by
  obtain ⟨t, ts, hr⟩ : ∃ t ts, (x :: y :: ys).reverse = t :: ts := by
    cases hr : (x :: y :: ys).reverse with
    | nil => simp at hr
    | cons t ts => exact ⟨t, ts, rfl⟩
  have htc : t.cls = lastCls (y :: ys) := by
    have : (x :: y :: ys).getLast? = some t := by
      rw [← List.head?_reverse, hr]; rfl
    unfold lastCls
    rw [show (x :: y :: ys).getLast? = (y :: ys).getLast? from by simp [List.getLast?_cons]] at this
    rw [this]; rfl
  rw [hr] at ht
  rw [← htc] at h ⊢
  have hlen : (core ++ t :: ts).length = (core ++ ts).length + 1 := by simp; omega
  obtain ⟨core', e1, e2⟩ := arrays_grow t ts ht ws core h ((core ++ ts).length)
  refine ⟨core', ?_, e2⟩
  rw [hr]
  have hst : core ++ (y :: ys).reverse ++ [x] = (x :: (y :: ys ++ core.reverse)).reverse := by simp
  rw [hst]
  obtain ⟨a, rest, hc'⟩ := e2.head
  refine parseReduce_false x _ (x :: (y :: ys ++ core.reverse)) (core' ++ t :: ts) a (rest ++ t :: ts) (hns x (by simp)) ?_ ?_ ?_ ?_
  · refine noSpec_append _ _ (fun i hi => hns i (List.mem_cons_of_mem _ hi)) (noSpec_reverse _ (h.noSpec hok))
  · apply resolveOperators_idle
    apply opRound_idle
    rcases hop with h | h
    · exact .inl h
    · exact .inr h
  · have e3 : (x :: (y :: ys ++ core.reverse)).reverse = core ++ t :: ts := by rw [← hr]; simp
    have e4 : (x :: (y :: ys ++ core.reverse)).length = (core ++ ts).length + 1 := by
      rw [← hlen, ← e3, List.length_reverse]
    rw [e3, e4]; exact e1
  · rw [hc']; rfl

theorem opsItems_length (ops : List (OpUse D)) : ops.length ≤ (opsItems ops).length := by
  induction ops with
  | nil => simp [opsItems]
  | cons o os ih => cases o <;> simp [opsItems, OpUse.items] <;> omega

/-- The words on the stack: the resolved words `ws`, and behind them a run of unresolved words: a word `v` and words with one monadic
operator. -/
structure RunOK (v : Word D) (P ws : List (Word D)) (core : List (Item D)) : Prop where
  single : ∀ u ∈ P, u.single = true
  ends : P ≠ [] → endsMop v.ops = true
  rep : (P = [] ∧ ws = [] ∧ core = []) ∨ Rep (lastCls (wordsItems (v :: P))) ws core

theorem single_verb (u : Word D) (h : u.single = true) : u.verb = true := by
  obtain ⟨s, hs⟩ := u.single_eq h
  simp [Word.verb, hs]

theorem ends_verb (u : Word D) (h : endsMop u.ops = true) : u.verb = true := by
  unfold Word.verb
  cases hops : u.ops with
  | nil => rw [hops] at h; simp [endsMop] at h
  | cons o os => simp

/-- the words of the run: the last one is special for the arrays -/
theorem run_split (v : Word D) (P ws : List (Word D)) (core : List (Item D)) (h : RunOK v P ws core) :
    ∃ us w, v :: P = us ++ [w] ∧ (∀ u ∈ us, u.verb = true) ∧ (us ≠ [] → w.verb = true) ∧
      (w.verb = false → lastCls (wordsItems (v :: P)) = .noun) := by
  cases hP : P using List.reverseRecOn with
  | nil =>
    refine ⟨[], v, rfl, by simp, fun h => absurd rfl h, ?_⟩
    intro hv
    simp only [Word.verb, Bool.or_eq_false_iff, Bool.not_eq_false', List.isEmpty_iff] at hv
    simp [wordsItems, Word.items, hv.1, hv.2, opsItems, lastCls, clsOf]
  | append_singleton P w _ =>
    have hw : w.verb = true := single_verb w (h.single w (by simp [hP]))
    refine ⟨v :: P, w, rfl, ?_, fun _ => hw, fun hn => by rw [hw] at hn; simp at hn⟩
    intro u hu
    rcases List.mem_cons.mp hu with rfl | hu
    · exact ends_verb u (h.ends (by simp [hP]))
    · exact single_verb u (h.single u (by simp [hP, hu]))

theorem RunOK.core_noSpec {v : Word D} {P ws : List (Word D)} {core : List (Item D)} (h : RunOK v P ws core)
    (hok : ∀ u ∈ v :: (P ++ ws), u.ok = true) : NoSpec core := by
  rcases h.rep with ⟨_, _, rfl⟩ | h
  · intro i hi; simp at hi
  · exact h.noSpec (fun v hv => hok v (by simp [hv]))

theorem RunOK.core_plain {v : Word D} {P ws : List (Word D)} {core : List (Item D)} (h : RunOK v P ws core) : Plain core.reverse := by
  rcases h.rep with ⟨_, _, rfl⟩ | h
  · intro i hi; simp at hi
  · intro i hi; exact h.plain i (List.mem_reverse.mp hi)

theorem wordsItems_noSpec (ws : List (Word D)) (h : ∀ w ∈ ws, w.ok = true) : NoSpec (wordsItems ws) := by
  induction ws with
  | nil => intro i hi; simp [wordsItems] at hi
  | cons w ws ih => exact noSpec_append _ _ (items_noSpec w (h w (by simp))) (ih (fun v hv => h v (by simp [hv])))

/-- the run as unresolved operators -/
theorem run_pend (x : Item D) (v : Word D) (P ws : List (Word D)) (core : List (Item D)) (h : RunOK v P ws core)
    (hnt : noTriple v.ops = true) :
    Pend x v.ops.length (x :: (wordsItems (v :: P) ++ core.reverse)) (x :: ((v :: P).map Word.item ++ core.reverse)) := by
  cases hops : v.ops with
  | nil =>
    have hP : P = [] := by
      by_contra hP
      have := h.ends hP
      rw [hops] at this; simp [endsMop] at this
    subst hP
    have : wordsItems [v] = [v.item] := by
      simp [wordsItems, Word.items, hops, opsItems, Word.item, Word.e, derive, Word.verb]
    rw [this]
    exact Pend.done _ ((items_plain [v]).append h.core_plain)
  | cons o os =>
    have := Pend.ops (x := x) o os v.p v.isVerb P core.reverse (hops ▸ hnt) h.core_plain h.single (fun hP => hops ▸ h.ends hP)
    have e1 : wordsItems (v :: P) ++ core.reverse =
        ⟨v.p, clsOf v.isVerb⟩ :: (opsItems (o :: os) ++ (wordsItems P ++ core.reverse)) := by
      simp [wordsItems, Word.items, hops]
    have e2 : (v :: P).map Word.item ++ core.reverse = ⟨derive v.p (o :: os), clsOf true⟩ :: (P.map Word.item ++ core.reverse) := by
      simp [Word.item, Word.e, hops, Word.verb]
    rw [e1, e2]
    exact this

/-- push an item to a complete run -/
theorem push_join (v : Word D) (P ws : List (Word D)) (e : Expr D) (hs : scope (v :: (P ++ ws)) = some e)
    (hok : ∀ u ∈ v :: (P ++ ws), u.ok = true) (x : Item D) (hx : x.cls ≠ .conj) (hxs : x.isSpec = false)
    (hxo : (x.cls.isOp = false ∧ noTriple v.ops = true) ∨ v.ops = [])
    (core : List (Item D)) (h : RunOK v P ws core) :
    ∃ core', parseReduce false (core ++ (wordsItems (v :: P)).reverse ++ [x]) = .ok (core' ++ [x]) ∧
      Rep x.cls (v :: (P ++ ws)) core' := by
  obtain ⟨us, w, husw, hus, hw, ht0⟩ := run_split v P ws core h
  have hsplit : v :: (P ++ ws) = us ++ w :: ws := by
    rw [← List.cons_append, husw]; simp
  rw [hsplit] at hs
  have hrep : (ws = [] ∧ core = []) ∨ Rep (lastCls (wordsItems (v :: P))) ws core := by
    rcases h.rep with ⟨_, h2, h3⟩ | h
    · exact .inl ⟨h2, h3⟩
    · exact .inr h
  have hlen : us.length = P.length := by
    have := congrArg List.length husw
    simp at this; omega
  obtain ⟨core', e1, e2⟩ := arrays_join_run us w ws e hs hus hw x hx core _ ht0 hrep (core.length + us.length + 2) (Nat.le_refl _)
  rw [hsplit]
  refine ⟨core', ?_, e2⟩
  have hst : core ++ (wordsItems (v :: P)).reverse ++ [x] = (x :: (wordsItems (v :: P) ++ core.reverse)).reverse := by simp
  rw [hst]
  obtain ⟨a, rest, hc'⟩ := e2.head
  refine parseReduce_false x _ (x :: ((v :: P).map Word.item ++ core.reverse)) (core' ++ [x]) a (rest ++ [x]) hxs ?_ ?_ ?_ (by rw [hc']; rfl)
  · refine noSpec_append _ _ (wordsItems_noSpec _ (fun u hu => hok u ?_)) (noSpec_reverse _ (h.core_noSpec hok))
    rw [← List.cons_append]; exact List.mem_append_left _ hu
  · by_cases hxop : x.cls.isOp = false
    · have hnt : noTriple v.ops = true := by
        rcases hxo with h | h
        · exact h.2
        · rw [h]; rfl
      have hl := opsItems_length v.ops
      exact resolve_run false x hxop _ _ _ (run_pend x v P ws core h hnt) _ (by simp [wordsItems, Word.items]; omega)
    · rcases hxo with h' | hops
      · exact absurd h'.1 hxop
      · have hP : P = [] := by
          by_contra hP
          have := h.ends hP
          rw [hops] at this; simp [endsMop] at this
        subst hP
        have : wordsItems [v] = [v].map Word.item := by
          simp [wordsItems, Word.items, Word.item, hops, opsItems, Word.e, derive, Word.verb]
        rw [this]
        apply resolveOperators_idle
        apply opRound_idle
        left
        simpa [opAt] using hxop
  · have e4 : (x :: ((v :: P).map Word.item ++ core.reverse)).length = core.length + us.length + 2 := by simp; omega
    rw [e4]
    have e5 : (x :: ((v :: P).map Word.item ++ core.reverse)).reverse = core ++ (((us ++ [w]).map Word.item).reverse ++ [x]) := by
      rw [← husw]; simp
    rw [e5]
    exact e1

/-! ### Words -/

/-- neighbours: one of two neighbouring items is an operator -/
def Alt : List (Item D) → Prop
  | [] => True
  | [_] => True
  | x :: y :: r => (x.cls.isOp = true ∨ y.cls.isOp = true) ∧ Alt (y :: r)

theorem alt_ops (ops : List (OpUse D)) (p : Item D) : Alt (p :: opsItems ops) := by
  induction ops generalizing p with
  | nil => trivial
  | cons o os ih =>
    cases o with
    | mop s => exact ⟨.inr rfl, ih _⟩
    | dop s q b => exact ⟨.inr rfl, .inl rfl, ih _⟩

theorem alt_suffix (pre : List (Item D)) (x y : Item D) (r : List (Item D)) (h : Alt (pre ++ x :: y :: r)) :
    x.cls.isOp = true ∨ y.cls.isOp = true := by
  induction pre with
  | nil => exact h.1
  | cons z zs ih =>
    cases zs with
    | nil => exact ih h.2
    | cons z' zs' => exact ih h.2

theorem opsItems_append (a b : List (OpUse D)) : opsItems (a ++ b) = opsItems a ++ opsItems b := by
  induction a with
  | nil => rfl
  | cons o os ih => simp [opsItems, ih]

theorem tail_items (w : Word D) : TailOK w.items.reverse := by
  unfold Word.items
  rcases List.eq_nil_or_concat w.ops with h | ⟨os, o, h⟩
  · rw [h]; exact clsOf_ne_conj _
  · rw [h, List.concat_eq_append, opsItems_append]
    cases o with
    | mop s =>
      have : (((⟨w.p, clsOf w.isVerb⟩ : Item D) :: (opsItems os ++ opsItems [.mop s])).reverse) =
          ⟨.fn (.der s none none), .adverb⟩ :: ((⟨w.p, clsOf w.isVerb⟩ : Item D) :: opsItems os).reverse := by
        simp [opsItems, OpUse.items]
      rw [this]
      cases ((⟨w.p, clsOf w.isVerb⟩ : Item D) :: opsItems os).reverse with
      | nil => simp [TailOK]
      | cons a b => exact ⟨by simp, fun h => by simp [Cls.isOp] at h⟩
    | dop s q b =>
      have : (((⟨w.p, clsOf w.isVerb⟩ : Item D) :: (opsItems os ++ opsItems [.dop s q b])).reverse) =
          ⟨q, clsOf b⟩ :: ⟨.fn (.der s none none), .conj⟩ :: ((⟨w.p, clsOf w.isVerb⟩ : Item D) :: opsItems os).reverse := by
        simp [opsItems, OpUse.items]
      rw [this]
      exact ⟨clsOf_ne_conj _, fun _ => rfl⟩

theorem tail_prefix (a b : List (Item D)) (ha : a ≠ []) (h : TailOK (a ++ b)) : TailOK a := by
  match a, ha with
  | [t], _ => exact h.head
  | t :: u :: r, _ => exact h

/-- push the items of an incomplete phrase -/
theorem push_rest (its : List (Item D)) (halt : Alt its) (htail : TailOK its.reverse) (hns : NoSpec its)
    (ws : List (Word D)) (hok : ∀ w ∈ ws, w.ok = true) (pre suf : List (Item D)) (hits : its = pre ++ suf) (hsuf : suf ≠ [])
    (core : List (Item D)) (h : Rep (lastCls its) ws core) :
    ∃ core', pushAll pre.reverse (core ++ suf.reverse) = .ok (core' ++ its.reverse) ∧ Rep (lastCls its) ws core' := by
  induction pre using List.reverseRecOn generalizing suf core with
  | nil => exact ⟨core, by rw [hits]; rfl, h⟩
  | append_singleton pre x ih =>
    obtain ⟨y, ys, rfl⟩ : ∃ y ys, suf = y :: ys := by
      cases suf with
      | nil => exact absurd rfl hsuf
      | cons y ys => exact ⟨y, ys, rfl⟩
    have hits' : its = pre ++ (x :: y :: ys) := by rw [hits]; simp
    have hl : lastCls its = lastCls (y :: ys) := by
      rw [hits']
      unfold lastCls
      congr 2
      simp [List.getLast?_append, List.getLast?_cons]
    rw [hl] at h ih ⊢
    obtain ⟨core1, e1, h1⟩ := push_grow x y ys (alt_suffix pre x y ys (by rw [← hits']; exact halt))
      (tail_prefix (x :: y :: ys).reverse pre.reverse (by simp) (by rw [← List.reverse_append, ← hits']; exact htail))
      (fun i hi => hns i (by rw [hits']; exact List.mem_append_right _ hi)) ws hok core h
    obtain ⟨core2, e2, h2⟩ := ih (x :: y :: ys) hits' (by simp) core1 h1
    refine ⟨core2, ?_, h2⟩
    rw [List.reverse_append, List.reverse_singleton, List.singleton_append, pushAll]
    simp only [e1, bind, Except.bind, e2]

theorem items_last (w : Word D) : ∃ pre x, w.items = pre ++ [x] ∧ x.cls ≠ .conj ∧ x.cls = lastCls w.items ∧
    (x.cls.isOp = endsMop w.ops) := by
  unfold Word.items
  rcases List.eq_nil_or_concat w.ops with h | ⟨os, o, h⟩
  · rw [h]; exact ⟨[], _, rfl, clsOf_ne_conj _, rfl, clsOf_op _⟩
  · rw [h, List.concat_eq_append, opsItems_append]
    cases o with
    | mop s =>
      refine ⟨⟨w.p, clsOf w.isVerb⟩ :: opsItems os, ⟨.fn (.der s none none), .adverb⟩, ?_, by simp, ?_, ?_⟩
      · simp [opsItems, OpUse.items]
      · have : ((⟨w.p, clsOf w.isVerb⟩ : Item D) :: (opsItems os ++ opsItems [.mop s])) =
          (⟨w.p, clsOf w.isVerb⟩ :: opsItems os) ++ [⟨.fn (.der s none none), .adverb⟩] := by simp [opsItems, OpUse.items]
        rw [this]; simp only [lastCls, List.getLast?_concat]; rfl
      · simp [endsMop, Cls.isOp]
    | dop s q b =>
      refine ⟨⟨w.p, clsOf w.isVerb⟩ :: (opsItems os ++ [⟨.fn (.der s none none), .conj⟩]), ⟨q, clsOf b⟩, ?_, clsOf_ne_conj _, ?_, ?_⟩
      · simp [opsItems, OpUse.items]
      · have : ((⟨w.p, clsOf w.isVerb⟩ : Item D) :: (opsItems os ++ opsItems [.dop s q b])) =
          (⟨w.p, clsOf w.isVerb⟩ :: (opsItems os ++ [⟨.fn (.der s none none), .conj⟩])) ++ [⟨q, clsOf b⟩] := by
            simp [opsItems, OpUse.items]
        rw [this]; simp only [lastCls, List.getLast?_concat]; rfl
      · simp [endsMop, clsOf_op]

theorem lastCls_append (a b : List (Item D)) (hb : b ≠ []) : lastCls (a ++ b) = lastCls b := by
  unfold lastCls
  congr 2
  rcases List.eq_nil_or_concat b with h | ⟨b', x, rfl⟩
  · exact absurd h hb
  · rw [List.concat_eq_append, ← List.append_assoc, List.getLast?_concat, List.getLast?_concat]

theorem alt_append (a b : List (Item D)) (ha : Alt a) (hb : Alt b) (h : ∀ x, a.getLast? = some x → x.cls.isOp = true) : Alt (a ++ b) := by
  induction a with
  | nil => exact hb
  | cons x a ih =>
    cases a with
    | nil =>
      cases b with
      | nil => trivial
      | cons y b => exact ⟨.inl (h x rfl), hb⟩
    | cons y a =>
      exact ⟨ha.1, ih ha.2 (fun z hz => h z (by simpa [List.getLast?_cons_cons] using hz))⟩

theorem tail_append (a b : List (Item D)) (ha : a ≠ []) (h : TailOK a) (h2 : ∀ t, a = [t] → t.cls.isOp = false → ∃ u us, b = u :: us ∧ u.cls = .conj) :
    TailOK (a ++ b) := by
  match a, ha with
  | [t], _ =>
    cases b with
    | nil => exact h
    | cons u us =>
      refine ⟨h, fun ht => ?_⟩
      obtain ⟨u', us', e, hu⟩ := h2 t rfl ht
      cases e; exact hu
  | t :: u :: r, _ => exact h

theorem run_alt (v : Word D) (P : List (Word D)) (hP : ∀ u ∈ P, u.single = true) (hend : P ≠ [] → endsMop v.ops = true) :
    Alt (wordsItems (v :: P)) := by
  induction P generalizing v with
  | nil => rw [wordsItems, wordsItems, List.append_nil]; exact alt_ops _ _
  | cons u us ih =>
    rw [wordsItems]
    refine alt_append _ _ (alt_ops _ _) (ih u (fun w hw => hP w (by simp [hw])) (fun _ => ?_)) ?_
    · obtain ⟨s, hs⟩ := u.single_eq (hP u (by simp))
      rw [hs]; rfl
    · intro x hx
      obtain ⟨pre, y, e1, _, _, e4⟩ := items_last v
      have hx' : v.items.getLast? = some x := hx
      rw [e1, List.getLast?_concat] at hx'
      cases hx'
      rw [e4]; exact hend (by simp)

theorem run_tail (v : Word D) (P : List (Word D)) (hP : ∀ u ∈ P, u.single = true) : TailOK (wordsItems (v :: P)).reverse := by
  induction P generalizing v with
  | nil => rw [wordsItems, wordsItems, List.append_nil]; exact tail_items v
  | cons u us ih =>
    rw [wordsItems, List.reverse_append]
    refine tail_append _ _ (by simp [wordsItems, Word.items]) (ih u (fun w hw => hP w (by simp [hw]))) ?_
    intro t ht
    exfalso
    obtain ⟨s, hs⟩ := u.single_eq (hP u (by simp))
    have := congrArg List.length ht
    simp [wordsItems, Word.items, hs, opsItems, OpUse.items] at this

theorem wordsItems_append (a b : List (Word D)) : wordsItems (a ++ b) = wordsItems a ++ wordsItems b := by
  induction a with
  | nil => rfl
  | cons w ws ih => simp [wordsItems, ih]

/-- After the items of a word are pushed, the stack has a run with the word in front of resolved words. -/
theorem push_words (w : Word D) (ws : List (Word D)) (e : Expr D) (hs : scope (w :: ws) = some e) (hok : ∀ v ∈ w :: ws, v.ok = true)
    (hsep : Parsable (w :: ws)) :
    ∃ P vs core, ws = P ++ vs ∧ pushAll (wordsItems (w :: ws)).reverse [] = .ok (core ++ (wordsItems (w :: P)).reverse) ∧
      (∀ u, P.head? = some u → noTriple u.ops = true ∧ u.ops ≠ []) ∧ (∀ u ∈ P.tail, u.single = true) ∧ (P.tail ≠ [] → ∀ u, P.head? = some u → endsMop u.ops = true) ∧
      (P ≠ [] → endsMop w.ops = true) ∧ ((P = [] ∧ vs = [] ∧ core = []) ∨ Rep (lastCls (wordsItems (w :: P))) vs core) := by
  induction ws generalizing w e with
  | nil =>
    have hv : w.verb = false := by
      cases hv : w.verb with
      | false => rfl
      | true => obtain ⟨f, r, _, hr, _⟩ := scope_verb w [] e hs hv; simp [scope] at hr
    simp only [Word.verb, Bool.or_eq_false_iff, Bool.not_eq_false', List.isEmpty_iff] at hv
    have hi : w.items = [N w.p] := by simp [Word.items, hv.1, hv.2, opsItems, clsOf]
    have hsp := items_noSpec w (hok w (by simp)) (N w.p) (by rw [hi]; simp)
    refine ⟨[], [], [], rfl, ?_, by simp, by simp, by simp, by simp, .inl ⟨rfl, rfl, rfl⟩⟩
    rw [wordsItems, wordsItems, List.append_nil, hi]
    have : parseReduce false [N w.p] = .ok [N w.p] :=
      parseReduce_false (N w.p) [] [N w.p] [N w.p] w.p [] hsp (by intro i hi; simp at hi) rfl rfl rfl
    simp only [List.reverse_singleton, pushAll, List.nil_append, this, bind, Except.bind]
  | cons v ws ih =>
    obtain ⟨hnt, hch, hsep2⟩ := hsep
    obtain ⟨r, hr⟩ := scope_tail w (v :: ws) e hs (by simp)
    have hokv : ∀ u ∈ v :: ws, u.ok = true := fun u hu => hok u (List.mem_cons_of_mem _ hu)
    have hpv : Parsable (v :: ws) := hsep2
    obtain ⟨P, vs, core, hws, e1, hP1, hP2, _, hP4, h1⟩ := ih v r hr hokv hpv
    -- the run behind the new word
    have hsingle : ∀ u ∈ P, u.single = true := by
      cases P with
      | nil => simp
      | cons u us =>
        intro u' hu'
        rcases List.mem_cons.mp hu' with rfl | h
        · have hh : ws.head? = some u' := by rw [hws]; rfl
          rcases hch (hP4 (by simp)) u' hh with h | h
          · exact absurd h (hP1 u' rfl).2
          · exact h
        · exact hP2 u' h
    have hrun : RunOK v P vs core := ⟨hsingle, hP4, h1⟩
    obtain ⟨pre, x, hitems, hxc, hxl, hxo⟩ := items_last w
    have hns := items_noSpec w (hok w (by simp))
    have hwi : wordsItems (w :: v :: ws) = w.items ++ wordsItems (v :: ws) := rfl
    have hpush : pushAll (wordsItems (w :: v :: ws)).reverse [] =
        (parseReduce false (core ++ (wordsItems (v :: P)).reverse ++ [x]) >>= fun st => pushAll pre.reverse st) := by
      rw [hwi, List.reverse_append, pushAll_append, e1, hitems, List.reverse_append, List.reverse_singleton, List.singleton_append]
      rfl
    rw [hpush]
    by_cases hjoin : x.cls.isOp = false ∨ v.ops = []
    · -- the run is resolved
      have hrs : scope (v :: (P ++ vs)) = some r := by rw [← hws]; exact hr
      obtain ⟨core1, e2, h2⟩ := push_join v P vs r hrs (by rw [← hws]; exact hokv) x hxc (hns x (by rw [hitems]; simp))
        (by
          rcases hjoin with h | h
          · exact .inl ⟨h, hnt⟩
          · exact .inr h) core hrun
      rw [← hws, hxl] at h2
      obtain ⟨core2, e3, h3⟩ := push_rest w.items (alt_ops _ _) (tail_items w) hns (v :: ws) hokv pre [x] hitems (by simp) core1 h2
      refine ⟨[], v :: ws, core2, rfl, ?_, by simp, by simp, by simp, by simp, .inr ?_⟩
      · rw [e2]
        have e3' := e3
        simp only [bind, Except.bind, wordsItems, List.append_nil]
        simpa using e3'
      · simpa [wordsItems] using h3
    · -- the run grows
      have hxop : x.cls.isOp = true := by
        cases h : x.cls.isOp with
        | true => rfl
        | false => exact absurd (.inl h) hjoin
      have hvops : v.ops ≠ [] := fun h => hjoin (.inr h)
      have hwend : endsMop w.ops = true := by rw [← hxo]; exact hxop
      have hrep : Rep (lastCls (wordsItems (v :: P))) vs core := by
        rcases h1 with ⟨rfl, rfl, rfl⟩ | h
        · exfalso
          simp only [List.append_nil] at hws
          subst hws
          have hvv : v.verb = true := by
            unfold Word.verb
            cases h : v.ops with
            | nil => exact absurd h hvops
            | cons _ _ => simp
          obtain ⟨f, r', _, hr', _⟩ := scope_verb v [] r hr hvv
          simp [scope] at hr'
        · exact h
      have hokvs : ∀ u ∈ vs, u.ok = true := fun u hu => hokv u (by rw [hws]; simp [hu])
      have hokP : ∀ u ∈ v :: P, u.ok = true := by
        intro u hu
        refine hokv u ?_
        rw [hws, ← List.cons_append]; exact List.mem_append_left _ hu
      have halt : Alt (w.items ++ wordsItems (v :: P)) := by
        refine alt_append _ _ (alt_ops _ _) (run_alt v P hsingle hP4) ?_
        intro y hy
        have hy' : w.items.getLast? = some y := hy
        rw [hitems, List.getLast?_concat] at hy'
        cases hy'; exact hxop
      have htail : TailOK (w.items ++ wordsItems (v :: P)).reverse := by
        rw [List.reverse_append]
        refine tail_append _ _ (by simp [wordsItems, Word.items]) (run_tail v P hsingle) ?_
        intro t ht _
        exfalso
        have := congrArg List.length ht
        cases hv : v.ops with
        | nil => exact hvops hv
        | cons o os =>
          cases o <;> simp [wordsItems, Word.items, hv, opsItems, OpUse.items] at this <;> omega
      have hnsr : NoSpec (w.items ++ wordsItems (v :: P)) := noSpec_append _ _ hns (wordsItems_noSpec _ hokP)
      have hlast : lastCls (w.items ++ wordsItems (v :: P)) = lastCls (wordsItems (v :: P)) :=
        lastCls_append _ _ (by simp [wordsItems, Word.items])
      obtain ⟨core2, e3, h3⟩ := push_rest (w.items ++ wordsItems (v :: P)) halt htail hnsr vs hokvs (pre ++ [x]) (wordsItems (v :: P))
        (by rw [hitems]) (by simp [wordsItems, Word.items]) core (by rw [hlast]; exact hrep)
      refine ⟨v :: P, vs, core2, by rw [hws]; rfl, ?_, ?_, hsingle, fun h u hu => ?_, fun _ => hwend, .inr h3⟩
      · rw [List.reverse_append, List.reverse_singleton, List.singleton_append, pushAll] at e3
        exact e3
      · intro u hu; simp at hu; subst hu; exact ⟨hnt, hvops⟩
      · simp at hu; subst hu; exact hP4 h

theorem linkFuncAssign_noun (e : Expr D) (h : isFnE e = false) : linkFuncAssign (N e) = N e := by
  unfold linkFuncAssign
  split
  · rename_i he
    have he : e = _ := he
    rw [he] at h; simp [isFnE] at h
  · rfl

theorem scope_not_fn (w : Word D) (ws : List (Word D)) (hok : w.ok = true) (e : Expr D) (hs : scope (w :: ws) = some e) :
    isFnE e = false := by
  cases hv : w.verb with
  | true => obtain ⟨f, r, _, _, he⟩ := scope_verb w ws e hs hv; rw [he]; rfl
  | false =>
    rcases scope_noun w ws e hs hv with ⟨_, he⟩ | ⟨v, vs, f, r, _, _, _, _, he⟩
    · simp only [Word.verb, Bool.or_eq_false_iff, Bool.not_eq_false', List.isEmpty_iff] at hv
      simp only [Word.ok, hv.1, Bool.false_or, Bool.and_eq_true, Bool.not_eq_true'] at hok
      rw [he]; unfold Word.e; rw [hv.2]; exact hok.1.2
    · rw [he]; rfl

/-- The items of words are parsed according to their scope. -/
theorem parse_words (w : Word D) (ws : List (Word D)) (e : Expr D) (hs : scope (w :: ws) = some e) (hok : ∀ v ∈ w :: ws, v.ok = true)
    (hsep : Parsable (w :: ws)) :
    (pushAll (wordsItems (w :: ws)).reverse [] >>= finishStatement) = .ok (some ⟨e, .noun⟩) := by
  obtain ⟨P, vs, core, hws, e1, hP1, hP2, hP3, hP4, h⟩ := push_words w ws e hs hok hsep
  rw [e1]
  simp only [bind, Except.bind]
  have hcs : NoSpec core := by
    rcases h with ⟨_, _, rfl⟩ | h
    · intro i hi; simp at hi
    · exact h.noSpec (fun v hv => hok v (by rw [hws]; simp [hv]))
  have hcp : Plain core.reverse := by
    rcases h with ⟨_, _, rfl⟩ | h
    · intro i hi; simp at hi
    · intro i hi; exact h.plain i (List.mem_reverse.mp hi)
  have hwP : ∀ u ∈ w :: P, u.ok = true := by
    intro u hu
    refine hok u ?_
    rw [hws, ← List.cons_append]; exact List.mem_append_left _ hu
  have hns := wordsItems_noSpec (w :: P) hwP
  have hl := opsItems_length w.ops
  have hops : resolveOperators true (wordsItems (w :: P) ++ core.reverse).length (wordsItems (w :: P) ++ core.reverse) =
      .ok ((w :: P).map Word.item ++ core.reverse) := by
    cases P with
    | nil =>
      have := resolve_last w.ops core.reverse hcp w.p w.isVerb (wordsItems [w] ++ core.reverse).length
        (by simp [wordsItems, Word.items]; omega)
      simpa [wordsItems, Word.items, Word.item, Word.e, Word.verb] using this
    | cons v P =>
      have hpend : ∀ x : Item D, Pend x v.ops.length (x :: (wordsItems (v :: P) ++ core.reverse))
          (x :: ((v :: P).map Word.item ++ core.reverse)) := by
        intro x
        refine run_pend x v P vs core ⟨hP2, fun h => hP3 h v rfl, ?_⟩ (hP1 v rfl).1
        right
        rcases h with ⟨h, _⟩ | h
        · simp at h
        · rw [wordsItems, lastCls_append _ _ (by simp [wordsItems, Word.items])] at h
          exact h
      have hlv := opsItems_length v.ops
      have hend := hP4 (by simp)
      have := resolve_last_run v.ops.length _ _ hpend w.ops hend w.p w.isVerb (wordsItems (w :: v :: P) ++ core.reverse).length
        (by simp [wordsItems, Word.items]; omega)
      have hv := ends_verb w hend
      have e2 : (w :: v :: P).map Word.item ++ core.reverse =
          ⟨derive w.p w.ops, clsOf true⟩ :: ((v :: P).map Word.item ++ core.reverse) := by
        simp [Word.item, Word.e, hv]
      rw [e2, ← this]
      congr 1
      simp [wordsItems, Word.items]
  have harr : resolveArrays true ((w :: P).map Word.item ++ core.reverse).length ((w :: P).map Word.item ++ core.reverse).reverse =
      .ok [N e] := by
    have hrev : ((w :: P).map Word.item ++ core.reverse).reverse = core ++ ((w :: P).map Word.item).reverse := by simp
    have hallv : ∀ u ∈ P, u.verb = true := by
      intro u hu
      cases P with
      | nil => simp at hu
      | cons v P =>
        rcases List.mem_cons.mp hu with rfl | hu
        · have := (hP1 u rfl).2
          unfold Word.verb
          cases h : u.ops with
          | nil => exact absurd h this
          | cons _ _ => simp
        · exact single_verb u (hP2 u hu)
    obtain ⟨us, z, husz, hus, hz, ht0⟩ : ∃ us z, w :: P = us ++ [z] ∧ (∀ u ∈ us, u.verb = true) ∧ (us ≠ [] → z.verb = true) ∧
        (z.verb = false → lastCls (wordsItems (w :: P)) = .noun) := by
      cases hP : P using List.reverseRecOn with
      | nil =>
        refine ⟨[], w, rfl, by simp, fun h => absurd rfl h, ?_⟩
        intro hv
        simp only [Word.verb, Bool.or_eq_false_iff, Bool.not_eq_false', List.isEmpty_iff] at hv
        simp [wordsItems, Word.items, hv.1, hv.2, opsItems, lastCls, clsOf]
      | append_singleton P z _ =>
        have hz : z.verb = true := hallv z (by simp [hP])
        refine ⟨w :: P, z, rfl, ?_, fun _ => hz, fun hn => by rw [hz] at hn; simp at hn⟩
        intro u hu
        rcases List.mem_cons.mp hu with rfl | hu
        · exact ends_verb u (hP4 (by simp [hP]))
        · exact hallv u (by simp [hP, hu])
    have hs2 : scope (us ++ z :: vs) = some e := by
      have : us ++ z :: vs = w :: (P ++ vs) := by rw [← List.cons_append, husz]; simp
      rw [this, ← hws]; exact hs
    have hlen : us.length = P.length := by
      have := congrArg List.length husz
      simp at this; omega
    rw [hrev, husz]
    have hrep : (vs = [] ∧ core = []) ∨ Rep (lastCls (wordsItems (w :: P))) vs core := by
      rcases h with ⟨_, h2, h3⟩ | h
      · exact .inl ⟨h2, h3⟩
      · exact .inr h
    refine arrays_end_run us z vs e hs2 hus hz core _ ht0 hrep _ ?_
    simp
    omega
  have hred : parseReduce true (core ++ (wordsItems (w :: P)).reverse) = .ok [N e] := by
    unfold parseReduce
    have hrev : (core ++ (wordsItems (w :: P)).reverse).reverse = wordsItems (w :: P) ++ core.reverse := by simp
    rw [hrev]
    have hc : wordsItems (w :: P) ++ core.reverse = ⟨w.p, clsOf w.isVerb⟩ :: (opsItems w.ops ++ (wordsItems P ++ core.reverse)) := by
      simp [wordsItems, Word.items]
    have hsp : NoSpec (wordsItems (w :: P) ++ core.reverse) := noSpec_append _ _ hns (noSpec_reverse _ hcs)
    rw [hc] at hsp ⊢
    simp only
    rw [if_neg (by rw [hsp _ (by simp)]; simp)]
    rw [resolveBrackets_id _ _ (fun i hi => hsp i (List.mem_cons_of_mem _ hi))]
    rw [← hc]
    simp only [bind, Except.bind, hops, harr, resolveFunctions, if_true]
    have : reduceTrains true [N e].length [N e] = [N e] := reduceTrains_noun true _ e []
    rw [this]
    rfl
  simp only [finishStatement, hred, bind, Except.bind, linkFuncAssign_noun e (scope_not_fn w ws (hok w (by simp)) e hs)]

end Iv

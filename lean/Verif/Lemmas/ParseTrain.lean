import Verif.Lemmas.ParseWords
/-
The parser on the items of words that are all functions: trains and function assignments (for C46).
-/
namespace Iv
variable {D : Type}

/-- The item of a sequence of functions. -/
def funItem (ws : List (Word D)) : Item D := ⟨(funScope ws).getD (.fn (.train [])), .verb⟩

theorem funItem_single (w : Word D) : funItem [w] = ⟨w.e, .verb⟩ := rfl

theorem funItem_cons (w v : Word D) (vs : List (Word D)) : funItem (w :: v :: vs) = ⟨.fn (.train (w.e :: (v :: vs).map Word.e)), .verb⟩ := rfl

theorem trainOf_none (e : Expr D) (h : isTrainE e = false) : trainOf e = none := by
  unfold trainOf
  split
  · simp [isTrainE] at h
  · rfl

theorem Word.item_verb' (w : Word D) (h : w.verb = true) : w.item = ⟨w.e, .verb⟩ := by simp [Word.item, h, clsOf]

/-- the rightmost function of a sequence of several functions must not be a train -/
def NoTrainEnd (ws : List (Word D)) : Prop := ∀ z, ws.getLast? = some z → isTrainE z.e = false

theorem reduceff_join (last : Bool) (w : Word D) (hw : w.verb = true) (vs : List (Word D)) (hvs : vs ≠ []) (hz : NoTrainEnd vs)
    (rest : List (Item D)) (hr : (∃ x r, rest = x :: r ∧ x.cls ≠ .conj) ∨ (rest = [] ∧ last = true)) :
    reduceff last (funItem vs :: w.item :: rest) = some (funItem (w :: vs) :: rest) := by
  rw [w.item_verb' hw]
  unfold reduceff
  refine (if_pos ?_).trans ?_
  · refine ⟨rfl, rfl, ?_⟩
    rcases hr with ⟨x, r, rfl, hx⟩ | h
    · exact .inr hx
    · exact .inl h
  match vs, hvs with
  | [z], _ =>
    rw [funItem_single]
    simp only [trainOf_none z.e (hz z rfl)]
    rfl
  | z :: z2 :: zs, _ => rfl

theorem noTrainEnd_cons (w : Word D) (vs : List (Word D)) (hvs : vs ≠ []) (h : NoTrainEnd vs) : NoTrainEnd (w :: vs) := by
  intro z hz
  cases vs with
  | nil => exact absurd rfl hvs
  | cons v vs => exact h z (by simpa [List.getLast?_cons_cons] using hz)

theorem noTrainEnd_suffix (us vs : List (Word D)) (hvs : vs ≠ []) (h : NoTrainEnd (us ++ vs)) : NoTrainEnd vs := by
  induction us with
  | nil => exact h
  | cons u us ih =>
    apply ih
    intro z hz
    apply h z
    cases hl : us ++ vs with
    | nil => simp [hvs] at hl
    | cons a as => rw [List.cons_append, hl, List.getLast?_cons_cons, ← hl]; exact hz

theorem trains_stop (last : Bool) (n : Nat) (st : List (Item D)) (h : reduceff last st = none) : reduceTrains last n st = st := by
  cases n with
  | zero => rfl
  | succ n => rw [reduceTrains, h]

/-- functions are joined to a train -/
theorem trains_run (last : Bool) (us vs : List (Word D)) (hus : ∀ u ∈ us, u.verb = true) (hvs : vs ≠ []) (hz : NoTrainEnd vs)
    (rest : List (Item D)) (hr : (∃ x, rest = [x] ∧ x.cls ≠ .conj ∧ (last = false ∨ x.cls ≠ .verb)) ∨ (rest = [] ∧ last = true)) (n : Nat)
    (hn : us.length ≤ n) :
    reduceTrains last n (funItem vs :: ((us.map Word.item).reverse ++ rest)) = funItem (us ++ vs) :: rest := by
  induction us using List.reverseRecOn generalizing vs n with
  | nil =>
    apply trains_stop
    rcases hr with ⟨x, rfl, _, hx2⟩ | ⟨rfl, _⟩
    · simp only [List.map_nil, List.reverse_nil, List.nil_append]
      unfold reduceff
      simp only
      refine if_neg ?_
      rintro ⟨_, h2, h3⟩
      rcases hx2 with h | h
      · rcases h3 with ⟨_, h'⟩ | h'
        · rw [h] at h'; simp at h'
        · exact h' rfl
      · exact h h2
    · rfl
  | append_singleton us u ih =>
    obtain ⟨k, rfl⟩ : ∃ k, n = k + 1 := ⟨n - 1, by simp at hn; omega⟩
    have e1 : ((us ++ [u]).map Word.item).reverse ++ rest = u.item :: ((us.map Word.item).reverse ++ rest) := by simp
    rw [e1, reduceTrains, reduceff_join last u (hus u (by simp)) vs hvs hz]
    · simp only
      rw [ih (u :: vs) (fun v hv => hus v (by simp [hv])) (by simp) (noTrainEnd_cons u vs hvs hz) k (by simp at hn; omega)]
      simp
    · cases us using List.reverseRecOn with
      | nil =>
        rcases hr with ⟨x, rfl, hx, _⟩ | ⟨rfl, h⟩
        · exact .inl ⟨x, [], rfl, hx⟩
        · exact .inr ⟨rfl, h⟩
      | append_singleton us v _ =>
        refine .inl ⟨v.item, (us.map Word.item).reverse ++ rest, by simp, ?_⟩
        exact clsOf_ne_conj _

/-- arrays do not matter if the rightmost item is a verb -/
theorem arrays_verb (last : Bool) (n : Nat) (f : Item D) (hf : f.cls ≠ .noun) (st : List (Item D)) :
    resolveArrays last n (f :: st) = .ok (f :: st) := by
  apply arrays_stop
  · unfold reducefA
    split
    · rename_i heq; cases heq
      exact if_neg (fun h => hf h.1)
    · rfl
  · unfold reduceAfA
    split
    · rename_i heq; cases heq
      split
      · rfl
      · rw [if_pos (fun h => hf h.2.2)]
    · rfl

/-- the resolved part of the stack -/
def funCore (vs : List (Word D)) : List (Item D) := if vs = [] then [] else [funItem vs]

theorem arrays_fun (vs : List (Word D)) (t : Item D) (ts : List (Item D)) (ht : TailOK (t :: ts)) (n : Nat) :
    resolveArrays false n (funCore vs ++ t :: ts) = .ok (funCore vs ++ t :: ts) := by
  by_cases hvs : vs = []
  · subst hvs
    by_cases hn : t.cls = .noun
    · apply arrays_stop
      · cases ts with
        | nil => rfl
        | cons u us =>
          have hu := ht.2 (by rw [hn]; rfl)
          exact fA_no _ _ _ (fun h => by rw [h] at hu; simp at hu)
      · cases ts with
        | nil => rfl
        | cons u us =>
          have hu := ht.2 (by rw [hn]; rfl)
          cases us with
          | nil => rfl
          | cons w ws => exact AfA_no_cls _ _ _ _ (by rw [hu]; simp)
    · exact arrays_verb _ _ _ hn _
  · have : funCore vs = [funItem vs] := if_neg hvs
    rw [this]
    exact arrays_verb _ _ _ (by simp [funItem]) _

theorem trains_grow (vs : List (Word D)) (t : Item D) (ts : List (Item D)) (ht : TailOK (t :: ts)) (n : Nat) :
    reduceTrains false n (funCore vs ++ t :: ts) = funCore vs ++ t :: ts := by
  apply trains_stop
  by_cases hvs : vs = []
  · subst hvs
    cases ts with
    | nil => rfl
    | cons u us =>
      have hh : funCore ([] : List (Word D)) ++ t :: u :: us = t :: u :: us := rfl
      rw [hh]
      unfold reduceff
      simp only
      refine if_neg ?_
      rintro ⟨h1, h2, _⟩
      have := ht.2 (by rw [h1]; rfl)
      rw [this] at h2; simp at h2
  · have : funCore vs = [funItem vs] := if_neg hvs
    rw [this]
    simp only [List.cons_append, List.nil_append]
    unfold reduceff
    simp only
    refine if_neg ?_
    rintro ⟨_, h2, h3⟩
    rcases ht.next t ts (by rw [h2]; rfl) with rfl | ⟨u, us, rfl, hu⟩
    · simp at h3
    · simp [hu] at h3

theorem parseReduce_fun (l : Item D) (ls ls' st : List (Item D)) (hl : l.isSpec = false) (hs : NoSpec ls)
    (h1 : resolveOperators false (l :: ls).length (l :: ls) = .ok ls')
    (h2 : resolveArrays false ls'.length ls'.reverse = .ok ls'.reverse) (h3 : reduceTrains false ls'.reverse.length ls'.reverse = st) :
    parseReduce false (l :: ls).reverse = .ok st := by
  unfold parseReduce
  rw [List.reverse_reverse]
  simp only [hl, Bool.false_eq_true, if_false, resolveBrackets_id l ls hs, bind, Except.bind, h1, h2, Bool.false_and, resolveFunctions, h3]

theorem funScope_noSpec (vs : List (Word D)) (hok : ∀ u ∈ vs, u.ok = true) : NoSpec (funCore vs) := by
  match vs, hok with
  | [], _ => intro i hi; simp [funCore] at hi
  | [w], hok =>
    intro i hi
    simp [funCore] at hi
    subst hi
    rw [Item.isSpec_eq]
    exact word_e_spec w (hok w (by simp))
  | w :: v :: vs, _ =>
    intro i hi
    simp [funCore] at hi
    subst hi
    rfl

theorem funCore_plain (vs : List (Word D)) : Plain (funCore vs) := by
  intro i hi
  unfold funCore at hi
  split at hi
  · simp at hi
  · simp at hi; subst hi; rfl

/-- push an item to an incomplete phrase -/
theorem push_grow_fun (x y : Item D) (ys : List (Item D)) (hop : x.cls.isOp = true ∨ y.cls.isOp = true)
    (ht : TailOK (x :: y :: ys).reverse) (hns : NoSpec (x :: y :: ys)) (vs : List (Word D)) (hok : ∀ w ∈ vs, w.ok = true) :
    parseReduce false (funCore vs ++ (y :: ys).reverse ++ [x]) = .ok (funCore vs ++ (x :: y :: ys).reverse) := by
  obtain ⟨t, ts, hr⟩ : ∃ t ts, (x :: y :: ys).reverse = t :: ts := by
    cases hr : (x :: y :: ys).reverse with
    | nil => simp at hr
    | cons t ts => exact ⟨t, ts, rfl⟩
  rw [hr] at ht
  have hst : funCore vs ++ (y :: ys).reverse ++ [x] = (x :: (y :: ys ++ (funCore vs).reverse)).reverse := by simp
  have e3 : (x :: (y :: ys ++ (funCore vs).reverse)).reverse = funCore vs ++ t :: ts := by rw [← hr]; simp
  rw [hst]
  refine parseReduce_fun x _ (x :: (y :: ys ++ (funCore vs).reverse)) _ (hns x (by simp)) ?_ ?_ ?_ ?_
  · exact noSpec_append _ _ (fun i hi => hns i (List.mem_cons_of_mem _ hi)) (noSpec_reverse _ (funScope_noSpec vs hok))
  · apply resolveOperators_idle
    apply opRound_idle
    rcases hop with h | h
    · exact .inl h
    · exact .inr h
  · rw [e3]; exact arrays_fun vs t ts ht _
  · rw [e3, trains_grow vs t ts ht, hr]

/-- push the items of an incomplete phrase -/
theorem push_rest_fun (its : List (Item D)) (halt : Alt its) (htail : TailOK its.reverse) (hns : NoSpec its)
    (vs : List (Word D)) (hok : ∀ w ∈ vs, w.ok = true) (pre suf : List (Item D)) (hits : its = pre ++ suf) (hsuf : suf ≠ []) :
    pushAll pre.reverse (funCore vs ++ suf.reverse) = .ok (funCore vs ++ its.reverse) := by
  induction pre using List.reverseRecOn generalizing suf with
  | nil => rw [hits]; rfl
  | append_singleton pre x ih =>
    obtain ⟨y, ys, rfl⟩ : ∃ y ys, suf = y :: ys := by
      cases suf with
      | nil => exact absurd rfl hsuf
      | cons y ys => exact ⟨y, ys, rfl⟩
    have hits' : its = pre ++ (x :: y :: ys) := by rw [hits]; simp
    have e1 := push_grow_fun x y ys (alt_suffix pre x y ys (by rw [← hits']; exact halt))
      (tail_prefix (x :: y :: ys).reverse pre.reverse (by simp) (by rw [← List.reverse_append, ← hits']; exact htail))
      (fun i hi => hns i (by rw [hits']; exact List.mem_append_right _ hi)) vs hok
    rw [List.reverse_append, List.reverse_singleton, List.singleton_append, pushAll]
    simp only [e1, bind, Except.bind]
    exact ih (x :: y :: ys) hits' (by simp)

theorem run_pend_fun (x : Item D) (v : Word D) (P : List (Word D)) (core : List (Item D)) (hc : Plain core)
    (hP : ∀ u ∈ P, u.single = true) (hend : P ≠ [] → endsMop v.ops = true) (hnt : noTriple v.ops = true) :
    Pend x v.ops.length (x :: (wordsItems (v :: P) ++ core)) (x :: ((v :: P).map Word.item ++ core)) := by
  cases hops : v.ops with
  | nil =>
    have hP : P = [] := by
      by_contra hP
      have := hend hP
      rw [hops] at this; simp [endsMop] at this
    subst hP
    have : wordsItems [v] = [v.item] := by
      simp [wordsItems, Word.items, hops, opsItems, Word.item, Word.e, derive, Word.verb]
    rw [this]
    exact Pend.done _ ((items_plain [v]).append hc)
  | cons o os =>
    have := Pend.ops (x := x) o os v.p v.isVerb P core (hops ▸ hnt) hc hP (fun h => hops ▸ hend h)
    have e1 : wordsItems (v :: P) ++ core = ⟨v.p, clsOf v.isVerb⟩ :: (opsItems (o :: os) ++ (wordsItems P ++ core)) := by
      simp [wordsItems, Word.items, hops]
    have e2 : (v :: P).map Word.item ++ core = ⟨derive v.p (o :: os), clsOf true⟩ :: (P.map Word.item ++ core) := by
      simp [Word.item, Word.e, hops, Word.verb]
    rw [e1, e2]
    exact this

/-- the functions of a run and the resolved ones -/
theorem trains_core (last : Bool) (us vs : List (Word D)) (hus : ∀ u ∈ us, u.verb = true) (hne : us ≠ []) (hz : NoTrainEnd (us ++ vs))
    (rest : List (Item D)) (hr : (∃ x, rest = [x] ∧ x.cls ≠ .conj ∧ (last = false ∨ x.cls ≠ .verb)) ∨ (rest = [] ∧ last = true)) (n : Nat)
    (hn : us.length ≤ n) :
    reduceTrains last n (funCore vs ++ ((us.map Word.item).reverse ++ rest)) = funItem (us ++ vs) :: rest := by
  by_cases hvs : vs = []
  · subst hvs
    rcases List.eq_nil_or_concat us with h | ⟨us', u, rfl⟩
    · exact absurd h hne
    · simp only [List.concat_eq_append, List.append_nil] at *
      have e1 : funCore ([] : List (Word D)) ++ (((us' ++ [u]).map Word.item).reverse ++ rest) =
          funItem [u] :: ((us'.map Word.item).reverse ++ rest) := by
        simp [funCore, funItem_single, u.item_verb' (hus u (by simp))]
      rw [e1]
      exact trains_run last us' [u] (fun v hv => hus v (by simp [hv])) (by simp) (noTrainEnd_suffix us' [u] (by simp) hz) rest hr n
        (by simp at hn; omega)
  · have : funCore vs = [funItem vs] := if_neg hvs
    rw [this]
    exact trains_run last us vs hus hvs (noTrainEnd_suffix us vs hvs hz) rest hr n hn

theorem push_join_fun (v : Word D) (P vs : List (Word D)) (hv : v.verb = true)
    (hok : ∀ u ∈ v :: (P ++ vs), u.ok = true) (x : Item D) (hx : x.cls ≠ .conj) (hxs : x.isSpec = false)
    (hxo : (x.cls.isOp = false ∧ noTriple v.ops = true) ∨ v.ops = [])
    (hP : ∀ u ∈ P, u.single = true) (hend : P ≠ [] → endsMop v.ops = true) (hz : NoTrainEnd (v :: (P ++ vs))) :
    parseReduce false (funCore vs ++ (wordsItems (v :: P)).reverse ++ [x]) = .ok (funCore (v :: (P ++ vs)) ++ [x]) := by
  have hst : funCore vs ++ (wordsItems (v :: P)).reverse ++ [x] = (x :: (wordsItems (v :: P) ++ (funCore vs).reverse)).reverse := by simp
  have hpl : Plain (funCore vs).reverse := fun i hi => funCore_plain vs i (List.mem_reverse.mp hi)
  have hverbs : ∀ u ∈ v :: P, u.verb = true := by
    intro u hu
    rcases List.mem_cons.mp hu with rfl | hu
    · exact hv
    · exact single_verb u (hP u hu)
  have e5 : (x :: ((v :: P).map Word.item ++ (funCore vs).reverse)).reverse = funCore vs ++ (((v :: P).map Word.item).reverse ++ [x]) := by
    simp
  rw [hst]
  refine parseReduce_fun x _ (x :: ((v :: P).map Word.item ++ (funCore vs).reverse)) _ hxs ?_ ?_ ?_ ?_
  · refine noSpec_append _ _ (wordsItems_noSpec _ (fun u hu => hok u ?_)) (noSpec_reverse _ (funScope_noSpec vs (fun u hu => hok u (by simp [hu]))))
    rw [← List.cons_append]; exact List.mem_append_left _ hu
  · by_cases hxop : x.cls.isOp = false
    · have hnt : noTriple v.ops = true := by
        rcases hxo with h | h
        · exact h.2
        · rw [h]; rfl
      have hl := opsItems_length v.ops
      exact resolve_run false x hxop _ _ _ (run_pend_fun x v P _ hpl hP hend hnt) _ (by simp [wordsItems, Word.items]; omega)
    · rcases hxo with h' | hops
      · exact absurd h'.1 hxop
      · have hP' : P = [] := by
          by_contra hP'
          have := hend hP'
          rw [hops] at this; simp [endsMop] at this
        subst hP'
        have : wordsItems [v] = [v].map Word.item := by
          simp [wordsItems, Word.items, Word.item, hops, opsItems, Word.e, derive, Word.verb]
        rw [this]
        apply resolveOperators_idle
        apply opRound_idle
        left
        simpa [opAt] using hxop
  · rw [e5]
    by_cases hvs : vs = []
    · subst hvs
      rcases List.eq_nil_or_concat (v :: P) with h | ⟨us, u, h⟩
      · simp at h
      · have hu : u.verb = true := hverbs u (by rw [h]; simp)
        rw [h]
        have : funCore ([] : List (Word D)) ++ (((us.concat u).map Word.item).reverse ++ [x]) =
            u.item :: ((us.map Word.item).reverse ++ [x]) := by simp [funCore]
        rw [this]
        exact arrays_verb _ _ _ (by rw [u.item_verb' hu]; simp) _
    · have : funCore vs = [funItem vs] := if_neg hvs
      rw [this]
      exact arrays_verb _ _ _ (by simp [funItem]) _
  · rw [e5, trains_core false (v :: P) vs hverbs (by simp) (by simpa using hz) [x] (.inl ⟨x, rfl, hx, .inl rfl⟩) _ (by simp; omega)]
    simp [funCore]

/-- After the items of a word are pushed, the stack has a run with the word in front of the train of the resolved words. -/
theorem push_words_fun (w : Word D) (ws : List (Word D)) (hv : ∀ v ∈ ws, v.verb = true) (hw : ws = [] → w.verb = true)
    (hok : ∀ v ∈ w :: ws, v.ok = true) (hz : NoTrainEnd ws) (hsep : Parsable (w :: ws)) :
    ∃ P vs, ws = P ++ vs ∧ pushAll (wordsItems (w :: ws)).reverse [] = .ok (funCore vs ++ (wordsItems (w :: P)).reverse) ∧
      (∀ u, P.head? = some u → noTriple u.ops = true ∧ u.ops ≠ []) ∧ (∀ u ∈ P.tail, u.single = true) ∧
      (P.tail ≠ [] → ∀ u, P.head? = some u → endsMop u.ops = true) ∧ (P ≠ [] → endsMop w.ops = true) := by
  induction ws generalizing w with
  | nil =>
    refine ⟨[], [], rfl, ?_, by simp, by simp, by simp, by simp⟩
    obtain ⟨pre, x, hitems, hxc, _, _⟩ := items_last w
    have hns := items_noSpec w (hok w (by simp))
    have hwi : wordsItems [w] = pre ++ [x] := by rw [wordsItems, wordsItems, List.append_nil, hitems]
    have hxn : x.cls ≠ .conj := hxc
    have h1 : parseReduce false [x] = .ok (funCore ([] : List (Word D)) ++ [x]) := by
      refine parseReduce_fun x [] [x] _ (hns x (by rw [hitems]; simp)) (by intro i hi; simp at hi) ?_ ?_ ?_
      · apply resolveOperators_idle; rfl
      · exact arrays_fun [] x [] hxc _
      · exact trains_grow [] x [] hxc _
    have h2 := push_rest_fun w.items (alt_ops _ _) (tail_items w) hns [] (by simp) pre [x] hitems (by simp)
    rw [hwi, List.reverse_append, List.reverse_singleton, List.singleton_append, pushAll, List.nil_append, h1]
    simp only [bind, Except.bind]
    rw [← List.singleton_append (l := pre.reverse), ← List.reverse_singleton, ← List.reverse_append, ← hitems]
    exact h2
  | cons v ws ih =>
    obtain ⟨hnt, hch, hsep2⟩ := hsep
    have hvv : v.verb = true := hv v (by simp)
    have hokv : ∀ u ∈ v :: ws, u.ok = true := fun u hu => hok u (List.mem_cons_of_mem _ hu)
    have hpv : Parsable (v :: ws) := hsep2
    have hzw : NoTrainEnd ws := by
      intro z hz'
      cases ws with
      | nil => simp at hz'
      | cons a as => exact hz z (by rw [List.getLast?_cons_cons]; exact hz')
    obtain ⟨P, vs, hws, e1, hP1, hP2, _, hP4⟩ := ih v (fun u hu => hv u (by simp [hu])) (fun _ => hvv) hokv hzw hpv
    have hsingle : ∀ u ∈ P, u.single = true := by
      cases P with
      | nil => simp
      | cons u us =>
        intro u' hu'
        rcases List.mem_cons.mp hu' with rfl | h
        · have hh : ws.head? = some u' := by rw [hws]; rfl
          rcases hch (hP4 (by simp)) u' hh with h | h
          · exact absurd h (hP1 u' rfl).2
          · exact h
        · exact hP2 u' h
    obtain ⟨pre, x, hitems, hxc, hxl, hxo⟩ := items_last w
    have hns := items_noSpec w (hok w (by simp))
    have hwi : wordsItems (w :: v :: ws) = w.items ++ wordsItems (v :: ws) := rfl
    have hpush : pushAll (wordsItems (w :: v :: ws)).reverse [] =
        (parseReduce false (funCore vs ++ (wordsItems (v :: P)).reverse ++ [x]) >>= fun st => pushAll pre.reverse st) := by
      rw [hwi, List.reverse_append, pushAll_append, e1, hitems, List.reverse_append, List.reverse_singleton, List.singleton_append]
      rfl
    rw [hpush]
    by_cases hjoin : x.cls.isOp = false ∨ v.ops = []
    · have e2 := push_join_fun v P vs hvv (by rw [← hws]; exact hokv) x hxc (hns x (by rw [hitems]; simp))
        (by
          rcases hjoin with h | h
          · exact .inl ⟨h, hnt⟩
          · exact .inr h) hsingle hP4 (by rw [← hws]; exact hz)
      rw [← hws] at e2
      have e3 := push_rest_fun w.items (alt_ops _ _) (tail_items w) hns (v :: ws) hokv pre [x] hitems (by simp)
      refine ⟨[], v :: ws, rfl, ?_, by simp, by simp, by simp, by simp⟩
      rw [e2]
      simp only [bind, Except.bind, wordsItems, List.append_nil]
      simpa using e3
    · have hxop : x.cls.isOp = true := by
        cases h : x.cls.isOp with
        | true => rfl
        | false => exact absurd (.inl h) hjoin
      have hvops : v.ops ≠ [] := fun h => hjoin (.inr h)
      have hwend : endsMop w.ops = true := by rw [← hxo]; exact hxop
      have hokvs : ∀ u ∈ vs, u.ok = true := fun u hu => hokv u (by rw [hws]; simp [hu])
      have hokP : ∀ u ∈ v :: P, u.ok = true := by
        intro u hu
        refine hokv u ?_
        rw [hws, ← List.cons_append]; exact List.mem_append_left _ hu
      have halt : Alt (w.items ++ wordsItems (v :: P)) := by
        refine alt_append _ _ (alt_ops _ _) (run_alt v P hsingle hP4) ?_
        intro y hy
        have hy' : w.items.getLast? = some y := hy
        rw [hitems, List.getLast?_concat] at hy'
        cases hy'; exact hxop
      have htail : TailOK (w.items ++ wordsItems (v :: P)).reverse := by
        rw [List.reverse_append]
        refine tail_append _ _ (by simp [wordsItems, Word.items]) (run_tail v P hsingle) ?_
        intro t ht _
        exfalso
        have := congrArg List.length ht
        cases hv : v.ops with
        | nil => exact hvops hv
        | cons o os =>
          cases o <;> simp [wordsItems, Word.items, hv, opsItems, OpUse.items] at this <;> omega
      have hnsr : NoSpec (w.items ++ wordsItems (v :: P)) := noSpec_append _ _ hns (wordsItems_noSpec _ hokP)
      have e3 := push_rest_fun (w.items ++ wordsItems (v :: P)) halt htail hnsr vs hokvs (pre ++ [x]) (wordsItems (v :: P))
        (by rw [hitems]) (by simp [wordsItems, Word.items])
      refine ⟨v :: P, vs, by rw [hws]; rfl, ?_, ?_, hsingle, fun h u hu => ?_, fun _ => hwend⟩
      · rw [List.reverse_append, List.reverse_singleton, List.singleton_append, pushAll] at e3
        exact e3
      · intro u hu; simp at hu; subst hu; exact ⟨hnt, hvops⟩
      · simp at hu; subst hu; exact hP4 h

/-- the end of a statement of functions: the operators -/
theorem finish_ops (w : Word D) (P : List (Word D)) (core : List (Item D)) (hcp : Plain core)
    (hP1 : ∀ u, P.head? = some u → noTriple u.ops = true ∧ u.ops ≠ []) (hP2 : ∀ u ∈ P.tail, u.single = true)
    (hP3 : P.tail ≠ [] → ∀ u, P.head? = some u → endsMop u.ops = true) (hP4 : P ≠ [] → endsMop w.ops = true) :
    resolveOperators true (wordsItems (w :: P) ++ core).length (wordsItems (w :: P) ++ core) = .ok ((w :: P).map Word.item ++ core) := by
  have hl := opsItems_length w.ops
  cases P with
  | nil =>
    have := resolve_last w.ops core hcp w.p w.isVerb (wordsItems [w] ++ core).length (by simp [wordsItems, Word.items]; omega)
    simpa [wordsItems, Word.items, Word.item, Word.e, Word.verb] using this
  | cons v P =>
    have hpend : ∀ x : Item D, Pend x v.ops.length (x :: (wordsItems (v :: P) ++ core)) (x :: ((v :: P).map Word.item ++ core)) :=
      fun x => run_pend_fun x v P core hcp hP2 (fun h => hP3 h v rfl) (hP1 v rfl).1
    have hlv := opsItems_length v.ops
    have hend := hP4 (by simp)
    have := resolve_last_run v.ops.length _ _ hpend w.ops hend w.p w.isVerb (wordsItems (w :: v :: P) ++ core).length
      (by simp [wordsItems, Word.items]; omega)
    have hv := ends_verb w hend
    have e2 : (w :: v :: P).map Word.item ++ core = ⟨derive w.p w.ops, clsOf true⟩ :: ((v :: P).map Word.item ++ core) := by
      simp [Word.item, Word.e, hv]
    rw [e2, ← this]
    congr 1
    simp [wordsItems, Word.items]

theorem parseReduce_last (w : Word D) (P : List (Word D)) (core : List (Item D)) (hok : ∀ u ∈ w :: P, u.ok = true) (hcs : NoSpec core)
    (hcp : Plain core.reverse)
    (hP1 : ∀ u, P.head? = some u → noTriple u.ops = true ∧ u.ops ≠ []) (hP2 : ∀ u ∈ P.tail, u.single = true)
    (hP3 : P.tail ≠ [] → ∀ u, P.head? = some u → endsMop u.ops = true) (hP4 : P ≠ [] → endsMop w.ops = true)
    (st : List (Item D))
    (h2 : resolveArrays true ((w :: P).map Word.item ++ core.reverse).length (core ++ ((w :: P).map Word.item).reverse) = .ok st) :
    parseReduce true (core ++ (wordsItems (w :: P)).reverse) =
      if (resolveFunctions true st).length > 1 then .error .err else .ok (resolveFunctions true st) := by
  have hops := finish_ops w P core.reverse hcp hP1 hP2 hP3 hP4
  unfold parseReduce
  have hrev : (core ++ (wordsItems (w :: P)).reverse).reverse = wordsItems (w :: P) ++ core.reverse := by simp
  rw [hrev]
  have hc : wordsItems (w :: P) ++ core.reverse = ⟨w.p, clsOf w.isVerb⟩ :: (opsItems w.ops ++ (wordsItems P ++ core.reverse)) := by
    simp [wordsItems, Word.items]
  have hsp : NoSpec (wordsItems (w :: P) ++ core.reverse) := noSpec_append _ _ (wordsItems_noSpec _ hok) (noSpec_reverse _ hcs)
  rw [hc] at hsp ⊢
  simp only
  rw [if_neg (by rw [hsp _ (by simp)]; simp)]
  rw [resolveBrackets_id _ _ (fun i hi => hsp i (List.mem_cons_of_mem _ hi))]
  rw [← hc]
  have hrev2 : ((w :: P).map Word.item ++ core.reverse).reverse = core ++ ((w :: P).map Word.item).reverse := by simp
  rw [← hrev2] at h2
  simp only [bind, Except.bind, hops, h2, Bool.true_and, decide_eq_true_eq]

/-- Functions are parsed to a function or to a train. -/
theorem parse_words_fun (w : Word D) (ws : List (Word D)) (hv : ∀ v ∈ w :: ws, v.verb = true) (hok : ∀ v ∈ w :: ws, v.ok = true)
    (hz : ws ≠ [] → NoTrainEnd ws) (hsep : Parsable (w :: ws)) :
    (pushAll (wordsItems (w :: ws)).reverse [] >>= finishStatement) = .ok (some (linkFuncAssign (funItem (w :: ws)))) := by
  have hz' : NoTrainEnd ws := by
    intro z hzz
    refine hz ?_ z hzz
    rintro rfl; simp at hzz
  obtain ⟨P, vs, hws, e1, hP1, hP2, hP3, hP4⟩ := push_words_fun w ws (fun v hvv => hv v (by simp [hvv])) (fun _ => hv w (by simp)) hok hz' hsep
  rw [e1]
  simp only [bind, Except.bind]
  have hwP : ∀ u ∈ w :: P, u ∈ w :: ws := by
    intro u hu
    rw [hws, ← List.cons_append]; exact List.mem_append_left _ hu
  have hpl : Plain (funCore vs).reverse := fun i hi => funCore_plain vs i (List.mem_reverse.mp hi)
  have hverbs : ∀ u ∈ w :: P, u.verb = true := fun u hu => hv u (hwP u hu)
  have harr : ∀ n, resolveArrays true n (funCore vs ++ ((w :: P).map Word.item).reverse) =
      .ok (funCore vs ++ ((w :: P).map Word.item).reverse) := by
    intro n
    by_cases hvs : vs = []
    · subst hvs
      rcases List.eq_nil_or_concat (w :: P) with h | ⟨us, u, h⟩
      · simp at h
      · have hu : u.verb = true := hverbs u (by rw [h]; simp)
        rw [h]
        have : funCore ([] : List (Word D)) ++ ((us.concat u).map Word.item).reverse = u.item :: (us.map Word.item).reverse := by
          simp [funCore]
        rw [this]
        exact arrays_verb _ _ _ (by rw [u.item_verb' hu]; simp) _
    · have : funCore vs = [funItem vs] := if_neg hvs
      rw [this]
      exact arrays_verb _ _ _ (by simp [funItem]) _
  have htr : ∀ n, (w :: P).length ≤ n → reduceTrains true n (funCore vs ++ ((w :: P).map Word.item).reverse) = [funItem (w :: ws)] := by
    intro n hn
    by_cases hone : ws = []
    · subst hone
      obtain ⟨rfl, rfl⟩ : P = [] ∧ vs = [] := by simpa using hws
      have : funCore ([] : List (Word D)) ++ ([w].map Word.item).reverse = [funItem [w]] := by
        simp [funCore, funItem_single, w.item_verb' (hv w (by simp))]
      rw [this]
      exact trains_stop _ _ _ rfl
    · have := trains_core true (w :: P) vs hverbs (by simp) (by
        have : w :: P ++ vs = w :: ws := by rw [hws]; rfl
        rw [this]; exact noTrainEnd_cons w ws hone hz') [] (.inr ⟨rfl, rfl⟩) n hn
      have h2 : w :: P ++ vs = w :: ws := by rw [hws]; rfl
      rw [h2, List.append_nil] at this
      exact this
  have hred := parseReduce_last w P (funCore vs) (fun u hu => hok u (hwP u hu)) (funScope_noSpec vs (fun u hu => hok u (by rw [hws]; simp [hu])))
    hpl hP1 hP2 hP3 hP4 _ (harr _)
  have hrf : resolveFunctions true (funCore vs ++ ((w :: P).map Word.item).reverse) = [funItem (w :: ws)] := by
    unfold resolveFunctions
    simp only
    rw [htr _ (by simp)]
    rfl
  rw [hrf] at hred
  simp only [List.length_singleton, gt_iff_lt, Nat.lt_irrefl, if_false] at hred
  simp only [finishStatement, hred, bind, Except.bind]

/-- An array in front of an even number of functions is a train, too. -/
theorem parse_words_fork (w : Word D) (ws : List (Word D)) (hw : w.verb = false) (hv : ∀ v ∈ ws, v.verb = true)
    (hok : ∀ v ∈ w :: ws, v.ok = true) (hz : NoTrainEnd ws) (hsep : Parsable (w :: ws)) (hne : ws ≠ []) (heven : ws.length % 2 = 0) :
    (pushAll (wordsItems (w :: ws)).reverse [] >>= finishStatement) =
      .ok (some (linkFuncAssign ⟨.fn (.train ((w :: ws).map Word.e)), .verb⟩)) := by
  obtain ⟨P, vs, hws, e1, hP1, hP2, hP3, hP4⟩ := push_words_fun w ws hv (fun h => absurd h hne) hok hz hsep
  have hPn : P = [] := by
    by_contra h
    have := ends_verb w (hP4 h)
    rw [hw] at this; simp at this
  subst hPn
  simp only [List.nil_append] at hws
  subst hws
  rw [e1]
  simp only [bind, Except.bind]
  have hpl : Plain (funCore ws).reverse := fun i hi => funCore_plain ws i (List.mem_reverse.mp hi)
  have hcore : funCore ws = [funItem ws] := if_neg hne
  have hst : funCore ws ++ (([w].map Word.item).reverse) = [funItem ws, N w.e] := by
    rw [hcore]; simp [w.item_noun hw]
  have harr : ∀ n, resolveArrays true n (funCore ws ++ (([w].map Word.item).reverse)) = .ok [funItem ws, N w.e] := by
    intro n
    rw [hst]
    exact arrays_verb _ _ _ (by simp [funItem]) _
  have hred := parseReduce_last w [] (funCore ws) (fun u hu => hok u (by simp at hu; simp [hu])) (funScope_noSpec ws (fun u hu => hok u (by simp [hu])))
    hpl (by simp) (by simp) (by simp) (by simp) _ (harr _)
  have hrf : resolveFunctions true [funItem ws, N w.e] = [⟨.fn (.train ((w :: ws).map Word.e)), .verb⟩] := by
    unfold resolveFunctions
    simp only
    rw [trains_stop true _ [funItem ws, N w.e] (by unfold reduceff; exact if_neg (by simp))]
    match ws, hne, heven with
    | [_], _, h => simp at h
    | a :: b :: r, _, heven =>
      simp only [funItem_cons, trainOf, if_true]
      rw [if_pos ⟨trivial, by simpa using heven⟩]
      rfl
  rw [hrf] at hred
  simp only [List.length_singleton, gt_iff_lt, Nat.lt_irrefl, if_false] at hred
  simp only [finishStatement, hred, bind, Except.bind]

end Iv

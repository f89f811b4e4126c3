import Verif.Lemmas.Parse
/-
Runs of unresolved words on the stack of the parser (for C46).
-/
namespace Iv
variable {D : Type}

theorem endsMop_tail (o r : OpUse D) (rs : List (OpUse D)) (h : endsMop (o :: r :: rs) = true) : endsMop (r :: rs) = true := by
  simpa [endsMop, List.getLast?_cons_cons] using h

theorem Word.single_eq (w : Word D) (h : w.single = true) : ∃ s, w.ops = [.mop s] := by
  unfold Word.single at h
  split at h
  · rename_i s hs; exact ⟨s, hs⟩
  · simp at h

theorem mop_skip (n i : Nat) (ls : List (Item D)) (b : Bool) (h : ∀ d, ls[i + 1]? = some d → d.cls ≠ .adverb) :
    mopReduce n i ls b = .ok (b, ls) := by
  cases n with
  | zero => rfl
  | succ n =>
    rw [mopReduce]
    split
    · rename_i x d hx hd
      rw [if_pos (h d hd)]
    · rfl

theorem Plain.append {a b : List (Item D)} (ha : Plain a) (hb : Plain b) : Plain (a ++ b) := by
  intro i hi
  rcases List.mem_append.mp hi with h | h
  · exact ha i h
  · exact hb i h

theorem items_plain (P : List (Word D)) : Plain (P.map Word.item) := by
  intro i hi
  obtain ⟨w, _, rfl⟩ := List.mem_map.mp hi
  exact clsOf_op _

/-- a chain of words with one monadic operator each -/
theorem mop_chain (P : List (Word D)) (hP : ∀ u ∈ P, u.single = true) (core : List (Item D)) (hc : Plain core) (pre : List (Item D))
    (i n : Nat) (hi : pre.length = i) (h2 : 2 ≤ i) (hx : opAt pre 0 = false) (hn : P.length ≤ n) :
    mopReduce n i (pre ++ (wordsItems P ++ core)) true = .ok (true, pre ++ (P.map Word.item ++ core)) := by
  induction P generalizing pre i n with
  | nil =>
    apply mop_skip
    intro d hd
    rw [List.getElem?_append_right (by omega)] at hd
    exact isOp_ne_adverb (hc.get _ _ d hd)
  | cons u us ih =>
    obtain ⟨s, hs⟩ := u.single_eq (hP u (by simp))
    obtain ⟨n, rfl⟩ : ∃ m, n = m + 1 := ⟨n - 1, by simp at hn; omega⟩
    have hit : u.items = [⟨u.p, clsOf u.isVerb⟩, ⟨.fn (.der s none none), .adverb⟩] := by
      simp [Word.items, hs, opsItems, OpUse.items]
    have hitem : u.item = ⟨.fn (.der s (some u.p) none), .verb⟩ := by
      simp [Word.item, Word.e, hs, derive, Word.verb, clsOf]
    have e0 : ∀ x (r : List (Item D)), (pre ++ x :: r)[i]? = some x := by
      intro x r; rw [List.getElem?_append_right (by omega)]; simp [hi]
    have e1 : ∀ x y (r : List (Item D)), (pre ++ x :: y :: r)[i + 1]? = some y := by
      intro x y r; rw [List.getElem?_append_right (by omega)]; simp [hi]
    have ex : ∀ r : List (Item D), opAt (pre ++ r) 0 = false := by
      intro r
      cases pre with
      | nil => simp at hi; omega
      | cons a as => simpa [opAt] using hx
    have hne : (i == 1) = false := by simp; omega
    rw [mopReduce]
    simp only [wordsItems, hit, List.cons_append, List.nil_append, e0, e1, ne_eq, not_true_eq_false, if_false, ex, hne,
      Bool.false_and, Bool.or_false, Bool.false_eq_true, setLo, bind, Except.bind]
    have hset : ∀ (x y z : Item D) (r : List (Item D)), ((pre ++ x :: y :: r).set i z).eraseIdx (i + 1) = (pre ++ [z]) ++ r := by
      intro x y z r
      rw [List.set_append_right _ _ (by omega), List.eraseIdx_append_of_length_le (by omega)]
      simp [hi]
    rw [hset]
    have := ih (fun v hv => hP v (by simp [hv])) (pre ++ [⟨.fn (.der s (some u.p) none), .verb⟩]) (i + 1) n (by simp [hi]) (by omega)
      (ex _) (by simp at hn; omega)
    rw [this]
    simp [hitem]

/-- A run of unresolved words behind an item; the words behind the first one have one monadic operator.  The number is the number of
operators of the first word, the last argument are the resolved words. -/
inductive Pend (x : Item D) : Nat → List (Item D) → List (Item D) → Prop
  | done (l) : Plain l → Pend x 0 (x :: l) (x :: l)
  | ops (o os p b P core) : noTriple (o :: os) = true → Plain core → (∀ u ∈ P, u.single = true) →
      (P ≠ [] → endsMop (o :: os) = true) →
      Pend x (os.length + 1) (x :: ⟨p, clsOf b⟩ :: (opsItems (o :: os) ++ (wordsItems P ++ core)))
        (x :: ⟨derive p (o :: os), clsOf true⟩ :: (P.map Word.item ++ core))

/-- the item at position 2 is a dyadic operator -/
def conjAt2 (ls : List (Item D)) : Prop := ∃ d, ls[2]? = some d ∧ d.cls = .conj

theorem wordsItems_length (P : List (Word D)) : P.length ≤ (wordsItems P).length := by
  induction P with
  | nil => simp [wordsItems]
  | cons u us ih => simp [wordsItems, Word.items]; omega

theorem run_head (P : List (Word D)) (core : List (Item D)) (hc : Plain core) (d : Item D) (h : (wordsItems P ++ core)[0]? = some d) :
    d.cls.isOp = false := by
  cases P with
  | nil => exact hc.get _ 0 d h
  | cons u us =>
    simp [wordsItems, Word.items] at h
    rw [← h]; exact clsOf_op _

theorem Pend.get1 {x : Item D} {m : Nat} {ls T : List (Item D)} (h : Pend x m ls T) : ∀ d, ls[1]? = some d → d.cls.isOp = false := by
  cases h with
  | done l hl => intro d hd; exact hl.get _ 0 d (by simpa using hd)
  | ops o os p b P core _ _ _ _ => intro d hd; simp at hd; rw [← hd]; exact clsOf_op _

theorem mop1_pend (x : Item D) (hx : x.cls.isOp = false) (m : Nat) (ls T : List (Item D)) (h : Pend x m ls T) (n : Nat)
    (hn : ls.length ≤ n) (r : Bool) :
    (∃ m' ls', mopReduce n 1 ls r = .ok (true, ls') ∧ Pend x m' ls' T ∧ m' < m) ∨
      (mopReduce n 1 ls r = .ok (r, ls) ∧ (m = 0 ∨ conjAt2 ls)) := by
  cases h with
  | done l hl => exact .inr ⟨mop1_skip _ _ _ (fun d hd => isOp_ne_adverb (hl.get _ 1 d (by simpa using hd))), .inl rfl⟩
  | ops o os p b P core hnt hc hP hend =>
    match o, hnt, hend with
    | .dop s q bq, _, _ =>
      exact .inr ⟨mop1_skip _ _ _ (by intro d hd; simp [opsItems, OpUse.items] at hd; rw [← hd]; simp),
        .inr ⟨_, rfl, rfl⟩⟩
    | .mop s, hnt, hend =>
      left
      obtain ⟨n, rfl⟩ : ∃ k, n = k + 1 := ⟨n - 1, by simp at hn; omega⟩
      have h1 : mopReduce (n + 1) 1 (x :: ⟨p, clsOf b⟩ :: (opsItems (.mop s :: os) ++ (wordsItems P ++ core))) r =
          mopReduce n 2 (x :: ⟨.fn (.der s (some p) none), clsOf true⟩ :: (opsItems os ++ (wordsItems P ++ core))) true := by
        rw [mopReduce]
        simp only [opsItems, OpUse.items, List.cons_append, List.nil_append,
          List.getElem?_cons_succ, List.getElem?_cons_zero, ne_eq, not_true_eq_false, if_false, opAt, hx, clsOf_op,
          Bool.and_false, Bool.or_false, Bool.false_eq_true, setLo, bind, Except.bind, List.set_cons_succ, List.set_cons_zero,
          List.eraseIdx_cons_succ, List.eraseIdx_cons_zero]
        rfl
      rw [h1]
      cases os with
      | nil =>
        have hl := wordsItems_length P
        refine ⟨0, _, mop_chain P hP core hc [x, ⟨.fn (.der s (some p) none), clsOf true⟩] 2 n rfl (by omega) hx
          (by simp at hn; omega), ?_, by simp⟩
        refine Pend.done _ ?_
        intro i hi
        rcases List.mem_cons.mp hi with h | h
        · rw [h]; rfl
        · exact (items_plain P).append hc i h
      | cons o2 rest =>
        refine ⟨rest.length + 1, _, mop2_skip _ _ _ ?_, Pend.ops o2 rest _ true P core (noTriple_tail _ _ hnt) hc hP
          (fun h => endsMop_tail _ _ _ (hend h)), by simp⟩
        intro d hd
        simp only [List.getElem?_cons_succ] at hd
        match o2, rest, hnt, hd with
        | .dop _ _ bq, _, _, hd =>
          simp [opsItems, OpUse.items] at hd
          rw [← hd]; exact clsOf_ne_adverb bq
        | .mop _, [], _, hd =>
          exact isOp_ne_adverb (run_head P core hc d (by simpa [opsItems, OpUse.items] using hd))
        | .mop _, .mop _ :: _, hnt, _ => simp [noTriple] at hnt
        | .mop _, .dop _ _ _ :: _, _, hd =>
          simp [opsItems, OpUse.items] at hd
          rw [← hd]; simp

theorem dop1_pend (x : Item D) (hx : x.cls.isOp = false) (m : Nat) (ls T : List (Item D)) (h : Pend x m ls T) :
    (∃ m' ls', dopReduce 1 ls = .ok (true, ls') ∧ Pend x m' ls' T ∧ m' < m) ∨ (dopReduce 1 ls = .ok (false, ls) ∧ ¬ conjAt2 ls) := by
  cases h with
  | done l hl =>
    refine .inr ⟨dop1_skip _ (fun d hd => isOp_ne_conj (hl.get _ 1 d (by simpa using hd))), ?_⟩
    rintro ⟨d, hd, hc⟩
    exact isOp_ne_conj (hl.get _ 1 d (by simpa using hd)) hc
  | ops o os p b P core hnt hc hP hend =>
    match o, hnt, hend with
    | .mop s, _, _ =>
      refine .inr ⟨dop1_skip _ (by intro d hd; simp [opsItems, OpUse.items] at hd; rw [← hd]; simp), ?_⟩
      rintro ⟨d, hd, hc⟩
      simp [opsItems, OpUse.items] at hd
      rw [← hd] at hc; simp at hc
    | .dop s q bq, hnt, hend =>
      left
      have h1 := dop1_step x hx p q b bq s (opsItems os ++ (wordsItems P ++ core))
      cases os with
      | nil =>
        cases P with
        | nil =>
          refine ⟨0, _, h1, ?_, by simp⟩
          refine Pend.done _ ?_
          intro i hi
          rcases List.mem_cons.mp hi with h | h
          · rw [h]; rfl
          · exact hc i h
        | cons u us => have := hend (by simp); simp [endsMop] at this
      | cons o2 rest =>
        exact ⟨rest.length + 1, _, h1, Pend.ops o2 rest _ true P core (noTriple_tail _ _ hnt) hc hP
          (fun h => endsMop_tail _ _ _ (hend h)), by simp⟩

theorem opRound_pend (last : Bool) (x : Item D) (hx : x.cls.isOp = false) (m : Nat) (ls T : List (Item D)) (h : Pend x m ls T) :
    (∃ m' ls', opRound last ls = .ok (true, ls') ∧ Pend x m' ls' T ∧ m' < m) ∨ (opRound last ls = .ok (false, ls) ∧ m = 0) := by
  have hm : ∀ m ls, Pend x m ls T → (if last then mopReduce ls.length 0 ls false else .ok (false, ls)) = .ok (false, ls) := by
    intro m ls h
    split
    · exact mop0_skip _ _ _ (fun d hd => isOp_ne_adverb (h.get1 d hd))
    · rfl
  have hd : ∀ m ls, Pend x m ls T → (if last then dopReduce 0 ls else .ok (false, ls)) = .ok (false, ls) := by
    intro m ls h
    split
    · exact dop0_skip _ (fun d hd => isOp_ne_conj (h.get1 d hd))
    · rfl
  rcases mop1_pend x hx m ls T h ls.length (Nat.le_refl _) false with ⟨m1, l1, e1, p1, hm1⟩ | ⟨e1, hc⟩
  · rcases dop1_pend x hx m1 l1 T p1 with ⟨m2, l2, e2, p2, hm2⟩ | ⟨e2, _⟩
    · left
      refine ⟨m2, l2, ?_, p2, by omega⟩
      simp only [opRound, hm m ls h, e1, hd m1 l1 p1, e2, bind, Except.bind, Bool.or_true]
    · left
      refine ⟨m1, l1, ?_, p1, hm1⟩
      simp only [opRound, hm m ls h, e1, hd m1 l1 p1, e2, bind, Except.bind, Bool.or_true, Bool.or_false]
  · rcases dop1_pend x hx m ls T h with ⟨m2, l2, e2, p2, hm2⟩ | ⟨e2, hn⟩
    · left
      refine ⟨m2, l2, ?_, p2, by omega⟩
      simp only [opRound, hm m ls h, e1, hd m ls h, e2, bind, Except.bind, Bool.or_true]
    · right
      refine ⟨?_, hc.resolve_right hn⟩
      simp only [opRound, hm m ls h, e1, hd m ls h, e2, bind, Except.bind, Bool.or_false]

theorem Pend.zero {x : Item D} {ls T : List (Item D)} (h : Pend x 0 ls T) : ls = T := by
  cases h; rfl

/-- A run is resolved when it follows an item that is no operator. -/
theorem resolve_run (last : Bool) (x : Item D) (hx : x.cls.isOp = false) (m : Nat) (ls T : List (Item D)) (h : Pend x m ls T) (n : Nat)
    (hn : m < n) : resolveOperators last n ls = .ok T := by
  induction n generalizing m ls with
  | zero => omega
  | succ n ih =>
    rcases opRound_pend last x hx m ls T h with ⟨m', ls', e, p, hm⟩ | ⟨e, rfl⟩
    · rw [resolveOperators_step last n ls ls' e]
      exact ih m' ls' p (by omega)
    · rw [resolveOperators_idle last _ ls e, h.zero]

/-- At the end of the statement the leftmost word, that ends with a monadic operator, and the run behind it are resolved. -/
theorem resolve_last_run (m : Nat) (Q Q' : List (Item D)) (hQ : ∀ x : Item D, Pend x m (x :: Q) (x :: Q'))
    (ops : List (OpUse D)) (hend : endsMop ops = true) (p : Expr D) (b : Bool) (n : Nat) (hn : ops.length + m < n) :
    resolveOperators true n (⟨p, clsOf b⟩ :: (opsItems ops ++ Q)) = .ok (⟨derive p ops, clsOf true⟩ :: Q') := by
  induction n generalizing ops p b with
  | zero => omega
  | succ n ih =>
    match ops, hend, hn with
    | [], hend, _ => simp [endsMop] at hend
    | [.dop _ _ _], hend, _ => simp [endsMop] at hend
    | .dop s q bq :: o2 :: rest, hend, hn =>
      have hop : ∀ y : Item D, opAt (y :: (opsItems (o2 :: rest) ++ Q)) 1 = true := by
        intro y; cases o2 <;> rfl
      refine (resolveOperators_step true n _ _ (opRound_true _ _ _ _ _ false false true false
        (mop0_skip _ _ _ (by intro d hd; simp [opsItems, OpUse.items] at hd; rw [← hd]; simp))
        (mop_op1 _ _ _ rfl)
        (dop0_step p q b bq s (opsItems (o2 :: rest) ++ Q))
        (dop_op1 _ (hop _)))).trans ?_
      rw [ih (o2 :: rest) (endsMop_tail _ _ _ hend) _ true (by simp at hn ⊢; omega)]
      simp [derive]
    | [.mop s], _, hn =>
      have h0 : ∀ k, mopReduce (k + 1) 0 (⟨p, clsOf b⟩ :: (opsItems [.mop s] ++ Q)) false =
          mopReduce k 1 (⟨.fn (.der s (some p) none), clsOf true⟩ :: Q) true := by
        intro k
        rw [mopReduce]
        simp only [opsItems, OpUse.items, List.cons_append, List.nil_append, List.getElem?_cons_succ, List.getElem?_cons_zero, ne_eq,
          not_true_eq_false, if_false, opAt, clsOf_op, setLo, bind, Except.bind, List.set_cons_zero,
          List.eraseIdx_cons_succ, List.eraseIdx_cons_zero]
        rfl
      have hx : (⟨.fn (.der s (some p) none), clsOf true⟩ : Item D).cls.isOp = false := rfl
      have hp := hQ ⟨.fn (.der s (some p) none), clsOf true⟩
      have hd0 : ∀ m ls T, Pend (⟨.fn (.der s (some p) none), clsOf true⟩ : Item D) m ls T → dopReduce 0 ls = .ok (false, ls) :=
        fun m ls T h => dop0_skip _ (fun d hd => isOp_ne_conj (h.get1 d hd))
      have key : ∃ m' ls', opRound true (⟨p, clsOf b⟩ :: (opsItems [.mop s] ++ Q)) = .ok (true, ls') ∧
          Pend ⟨.fn (.der s (some p) none), clsOf true⟩ m' ls' (⟨.fn (.der s (some p) none), clsOf true⟩ :: Q') ∧ m' ≤ m := by
        have hlen : (⟨p, clsOf b⟩ :: (opsItems [.mop s] ++ Q) : List (Item D)).length = (Q.length + 1) + 1 := by
          simp [opsItems, OpUse.items]
        have e1 : ∃ m1 l1, mopReduce (⟨p, clsOf b⟩ :: (opsItems [.mop s] ++ Q) : List (Item D)).length 0
            (⟨p, clsOf b⟩ :: (opsItems [.mop s] ++ Q)) false = .ok (true, l1) ∧
            Pend ⟨.fn (.der s (some p) none), clsOf true⟩ m1 l1 (⟨.fn (.der s (some p) none), clsOf true⟩ :: Q') ∧ m1 ≤ m := by
          rw [hlen, h0]
          rcases mop1_pend _ hx m _ _ hp (Q.length + 1) (by simp) true with ⟨m1, l1, e, p1, h1⟩ | ⟨e, _⟩
          · exact ⟨m1, l1, e, p1, by omega⟩
          · exact ⟨m, _, e, hp, (Nat.le_refl _)⟩
        obtain ⟨m1, l1, e1, p1, h1⟩ := e1
        have e2 : ∃ b2 m2 l2, mopReduce l1.length 1 l1 false = .ok (b2, l2) ∧
            Pend ⟨.fn (.der s (some p) none), clsOf true⟩ m2 l2 (⟨.fn (.der s (some p) none), clsOf true⟩ :: Q') ∧ m2 ≤ m := by
          rcases mop1_pend _ hx m1 l1 _ p1 l1.length (Nat.le_refl _) false with ⟨m2, l2, e, p2, h2⟩ | ⟨e, _⟩
          · exact ⟨true, m2, l2, e, p2, by omega⟩
          · exact ⟨false, m1, l1, e, p1, h1⟩
        obtain ⟨b2, m2, l2, e2, p2, h2⟩ := e2
        have e4 : ∃ b4 m4 l4, dopReduce 1 l2 = .ok (b4, l4) ∧
            Pend ⟨.fn (.der s (some p) none), clsOf true⟩ m4 l4 (⟨.fn (.der s (some p) none), clsOf true⟩ :: Q') ∧ m4 ≤ m := by
          rcases dop1_pend _ hx m2 l2 _ p2 with ⟨m4, l4, e, p4, h4⟩ | ⟨e, _⟩
          · exact ⟨true, m4, l4, e, p4, by omega⟩
          · exact ⟨false, m2, l2, e, p2, h2⟩
        obtain ⟨b4, m4, l4, e4, p4, h4⟩ := e4
        refine ⟨m4, l4, ?_, p4, h4⟩
        rw [opRound_true _ _ _ _ _ true b2 false b4 e1 e2 (hd0 _ _ _ p2) e4]
        simp
      obtain ⟨m', ls', e, hp', hm⟩ := key
      rw [resolveOperators_step true n _ _ e]
      exact resolve_run true _ hx m' ls' _ hp' n (by simp at hn; omega)
    | .mop s :: o2 :: rest, hend, hn =>
      have hop : ∀ (y : Item D) (o : OpUse D) (os : List (OpUse D)), opAt (y :: (opsItems (o :: os) ++ Q)) 1 = true := by
        intro y o os; cases o <;> rfl
      have h0 : ∀ k, mopReduce (k + 1) 0 (⟨p, clsOf b⟩ :: (opsItems (.mop s :: o2 :: rest) ++ Q)) false =
          .ok (true, ⟨.fn (.der s (some p) none), clsOf true⟩ :: (opsItems (o2 :: rest) ++ Q)) := by
        intro k
        rw [mopReduce]
        simp only [opsItems, OpUse.items, List.cons_append, List.nil_append, List.getElem?_cons_succ, List.getElem?_cons_zero, ne_eq,
          not_true_eq_false, if_false, opAt, clsOf_op, setLo, bind, Except.bind, List.set_cons_zero,
          List.eraseIdx_cons_succ, List.eraseIdx_cons_zero]
        exact mop_op1 _ _ _ (hop _ o2 rest)
      match o2, rest, hend, hn, h0 with
      | .dop s' q bq, [], hend, _, _ => simp [endsMop] at hend
      | .dop s' q bq, o3 :: rest, hend, hn, h0 =>
        refine (resolveOperators_step true n _ _ (opRound_true _ _ _ _ _ true false true false (h0 _)
          (mop_op1 _ _ _ (hop _ _ _))
          (dop0_step _ q true bq s' (opsItems (o3 :: rest) ++ Q))
          (dop_op1 _ (hop _ _ _)))).trans ?_
        rw [ih (o3 :: rest) (endsMop_tail _ _ _ (endsMop_tail _ _ _ hend)) _ true (by simp at hn ⊢; omega)]
        simp [derive]
      | .mop s', rest, hend, hn, h0 =>
        refine (resolveOperators_step true n _ _ (opRound_true _ _ _ _ _ true false false false (h0 _)
          (mop_op1 _ _ _ (hop _ _ _))
          (dop0_skip _ (by intro d hd; simp [opsItems, OpUse.items] at hd; rw [← hd]; simp))
          (dop_op1 _ (hop _ _ _)))).trans ?_
        rw [ih (.mop s' :: rest) (endsMop_tail _ _ _ hend) _ true (by simp at hn ⊢; omega)]
        simp [derive]

/-! ### Arrays -/

/-- a word joins the resolved part, and there is another verb on its left -/
theorem arrays_join_step (last : Bool) (w : Word D) (ws : List (Word D)) (e : Expr D) (hs : scope (w :: ws) = some e)
    (hv : w.verb = true) (g : Func D) (rest : List (Item D))
    (hr : (∃ h r, rest = V h :: r) ∨ (last = false ∧ ∃ x, rest = [x]) ∨ (last = true ∧ rest = []))
    (core : List (Item D)) (t0 : Cls) (h : Rep t0 ws core) (n : Nat) (hn : core.length + 1 + 1 + rest.length ≤ n) :
    ∃ n', 2 + rest.length ≤ n' ∧
      resolveArrays last n (core ++ w.item :: V g :: rest) = resolveArrays last n' (N e :: V g :: rest) := by
  obtain ⟨f, r, hf, hr', he⟩ := scope_verb w ws e hs hv
  rw [w.item_verb hv f hf]
  have noAfA : ∀ a : Expr D, reduceAfA last (N a :: V g :: rest) = .ok (false, N a :: V g :: rest) := by
    intro a
    rcases hr with ⟨h, r, rfl⟩ | ⟨rfl, x, rfl⟩ | ⟨rfl, rfl⟩
    · unfold reduceAfA
      split
      · rename_i heq; cases heq
        split
        · rfl
        · rw [if_pos (by simp)]
      · rename_i h'; exact absurd rfl (h' _ _ _ _)
    · rfl
    · rfl
  have noAfA2 : ∀ (a : Expr D) (f : Func D), reduceAfA last (N a :: V f :: V g :: rest) = .ok (false, N a :: V f :: V g :: rest) := by
    intro a f
    unfold reduceAfA
    split
    · rename_i heq; cases heq
      split
      · rfl
      · rw [if_pos (by simp)]
    · rename_i h'; exact absurd rfl (h' _ _ _ _)
  have step1 : ∀ (k : Nat) (a : Expr D), resolveArrays last (k + 1) (N a :: V f :: V g :: rest) =
      resolveArrays last k (N (.app f none a false) :: V g :: rest) := fun k a =>
    arrays_step last k _ _ _ true false (fA_yes last a f (V g) rest (.inl rfl)) (noAfA _) rfl
  cases h with
  | all _ a hs' hw =>
    rw [hs'] at hr'; cases hr'
    refine ⟨n - 1, by simp at hn; omega, ?_⟩
    obtain ⟨k, rfl⟩ : ∃ k, n = k + 1 := ⟨n - 1, by simp at hn; omega⟩
    rw [he]
    exact step1 k _
  | verb v ws a f' hv' hf' hs' =>
    rw [scope_verb_mk v ws f' a hv' hf' hs'] at hr'; cases hr'
    refine ⟨n - 2, by simp at hn; omega, ?_⟩
    obtain ⟨k, rfl⟩ : ∃ k, n = k + 2 := ⟨n - 2, by simp at hn; omega⟩
    rw [he]
    exact (arrays_step last (k + 1) _ _ _ true false (fA_yes last _ f' (V f) (V g :: rest) (.inl rfl)) (noAfA2 _ _) rfl).trans
      (step1 k _)
  | noun m v ws a f' hm hv' hf' hs' =>
    rw [scope_noun_mk m v ws f' a hm hv' hf' hs'] at hr'; cases hr'
    refine ⟨n - 2, by simp at hn; omega, ?_⟩
    obtain ⟨k, rfl⟩ : ∃ k, n = k + 2 := ⟨n - 2, by simp at hn; omega⟩
    rw [he]
    refine (arrays_step last (k + 1) _ (N a :: V f' :: N m.e :: V f :: V g :: rest) (N (.app f' (some m.e) a false) :: V f :: V g :: rest) false true ?_ ?_ rfl).trans (step1 k _)
    · unfold reducefA
      exact if_neg (by simp [fALeft])
    · unfold reduceAfA
      simp only [List.cons_append, List.nil_append, AfALeft]
      rw [if_neg (by simp), if_pos (by simp)]
      rfl

theorem rep_verb (w : Word D) (ws : List (Word D)) (e : Expr D) (hs : scope (w :: ws) = some e) : Rep .verb (w :: ws) [N e] :=
  .all _ _ hs (fun h => by simp at h)

theorem scope_suffix (us ws : List (Word D)) (e : Expr D) (hs : scope (us ++ ws) = some e) (hne : ws ≠ []) : ∃ r, scope ws = some r := by
  induction us generalizing e with
  | nil => exact ⟨e, hs⟩
  | cons u us ih =>
    obtain ⟨r, hr⟩ := scope_tail u (us ++ ws) e hs (by simp [hne])
    exact ih r hr

/-- a run of words joins the resolved part -/
theorem arrays_join_run (us : List (Word D)) (w : Word D) (ws : List (Word D)) (e : Expr D) (hs : scope (us ++ w :: ws) = some e)
    (hus : ∀ u ∈ us, u.verb = true) (hw : us ≠ [] → w.verb = true) (x : Item D) (hx : x.cls ≠ .conj)
    (core : List (Item D)) (t0 : Cls) (ht0 : w.verb = false → t0 = .noun)
    (h : (ws = [] ∧ core = []) ∨ Rep t0 ws core) (n : Nat) (hn : core.length + us.length + 2 ≤ n) :
    ∃ core', resolveArrays false n (core ++ (((us ++ [w]).map Word.item).reverse ++ [x])) = .ok (core' ++ [x]) ∧
      Rep x.cls (us ++ w :: ws) core' := by
  induction us using List.reverseRecOn generalizing w ws core t0 n with
  | nil =>
    obtain ⟨k, rfl⟩ : ∃ k, n = k + 2 := ⟨n - 2, by omega⟩
    simpa using arrays_join w ws e hs x hx core t0 ht0 h k
  | append_singleton us u ih =>
    have hwv := hw (by simp)
    have hws : ws ≠ [] := by
      rintro rfl
      obtain ⟨r, hr⟩ := scope_suffix _ [w] e hs (by simp)
      obtain ⟨f, r, _, hr, _⟩ := scope_verb w [] r hr hwv
      simp [scope] at hr
    have hrep : Rep t0 ws core := by
      rcases h with ⟨h, _⟩ | h
      · exact absurd h hws
      · exact h
    have huv := hus u (by simp)
    obtain ⟨r, hr⟩ := scope_suffix (us ++ [u]) (w :: ws) e hs (by simp)
    have hs2 : scope (us ++ u :: (w :: ws)) = some e := by simpa using hs
    obtain ⟨r2, hr2⟩ := scope_suffix us (u :: (w :: ws)) e hs2 (by simp)
    obtain ⟨g, _, hg, _, _⟩ := scope_verb u (w :: ws) r2 hr2 huv
    have hus' : ∀ v ∈ us, ∃ f, v.item = V f := by
      intro v hv
      obtain ⟨a, b, rfl⟩ := List.append_of_mem hv
      have : a ++ v :: b ++ u :: w :: ws = a ++ v :: (b ++ u :: w :: ws) := by simp
      rw [this] at hs2
      obtain ⟨r3, hr3⟩ := scope_suffix a _ e hs2 (by simp)
      obtain ⟨f, _, hf, _, _⟩ := scope_verb v _ r3 hr3 (hus v (by simp))
      exact ⟨f, v.item_verb (hus v (by simp)) f hf⟩
    have hrest : (∃ h r, (us.map Word.item).reverse ++ [x] = V h :: r) ∨
        (false = false ∧ ∃ y, (us.map Word.item).reverse ++ [x] = [y]) ∨ (false = true ∧ (us.map Word.item).reverse ++ [x] = []) := by
      cases us using List.reverseRecOn with
      | nil => exact .inr (.inl ⟨rfl, x, rfl⟩)
      | append_singleton us v _ =>
        obtain ⟨f, hf⟩ := hus' v (by simp)
        exact .inl ⟨f, (us.map Word.item).reverse ++ [x], by simp [hf]⟩
    obtain ⟨n', hn', e1⟩ := arrays_join_step false w ws r hr hwv g ((us.map Word.item).reverse ++ [x]) hrest core t0 hrep n
      (by simp at hn ⊢; omega)
    obtain ⟨core', e2, h2⟩ := ih u (w :: ws) hs2 (fun v hv => hus v (by simp [hv])) (fun _ => huv) [N r] .verb
      (fun h => by rw [huv] at h; simp at h) (.inr (rep_verb w ws r hr)) n' (by simp at hn' ⊢; omega)
    refine ⟨core', ?_, by simpa using h2⟩
    have e3 : core ++ (((us ++ [u] ++ [w]).map Word.item).reverse ++ [x]) =
        core ++ w.item :: V g :: ((us.map Word.item).reverse ++ [x]) := by simp [u.item_verb huv g hg]
    rw [e3, e1, ← e2]
    simp [u.item_verb huv g hg]

/-- a run of verbs at the end of the statement -/
theorem arrays_end_run (us : List (Word D)) (w : Word D) (ws : List (Word D)) (e : Expr D) (hs : scope (us ++ w :: ws) = some e)
    (hus : ∀ u ∈ us, u.verb = true) (hw : us ≠ [] → w.verb = true)
    (core : List (Item D)) (t0 : Cls) (ht0 : w.verb = false → t0 = .noun)
    (h : (ws = [] ∧ core = []) ∨ Rep t0 ws core) (n : Nat) (hn : core.length + us.length + 1 ≤ n) :
    resolveArrays true n (core ++ ((us ++ [w]).map Word.item).reverse) = .ok [N e] := by
  induction us using List.reverseRecOn generalizing w ws core t0 n with
  | nil =>
    rcases h with ⟨rfl, rfl⟩ | h
    · have hv : w.verb = false := by
        cases hv : w.verb with
        | false => rfl
        | true => obtain ⟨f, r, _, hr, _⟩ := scope_verb w [] e hs hv; simp [scope] at hr
      have hs' : scope [w] = some e := hs
      rw [scope_cons, if_neg (by simp [hv])] at hs'
      simp only [Option.some.injEq] at hs'
      simp [w.item_noun hv, hs', last_N]
    · have hc : 1 ≤ core.length := by cases h <;> simp
      obtain ⟨k, rfl⟩ : ∃ k, n = k + 2 := ⟨n - 2, by simp at hn; omega⟩
      simpa using arrays_end w ws e hs core t0 ht0 (.inr h) k
  | append_singleton us u ih =>
    have hwv := hw (by simp)
    have hws : ws ≠ [] := by
      rintro rfl
      obtain ⟨r, hr⟩ := scope_suffix _ [w] e hs (by simp)
      obtain ⟨f, r, _, hr, _⟩ := scope_verb w [] r hr hwv
      simp [scope] at hr
    have hrep : Rep t0 ws core := by
      rcases h with ⟨h, _⟩ | h
      · exact absurd h hws
      · exact h
    have huv := hus u (by simp)
    obtain ⟨r, hr⟩ := scope_suffix (us ++ [u]) (w :: ws) e hs (by simp)
    have hs2 : scope (us ++ u :: (w :: ws)) = some e := by simpa using hs
    obtain ⟨r2, hr2⟩ := scope_suffix us (u :: (w :: ws)) e hs2 (by simp)
    obtain ⟨g, _, hg, _, _⟩ := scope_verb u (w :: ws) r2 hr2 huv
    have hus' : ∀ v ∈ us, ∃ f, v.item = V f := by
      intro v hv
      obtain ⟨a, b, rfl⟩ := List.append_of_mem hv
      have : a ++ v :: b ++ u :: w :: ws = a ++ v :: (b ++ u :: w :: ws) := by simp
      rw [this] at hs2
      obtain ⟨r3, hr3⟩ := scope_suffix a _ e hs2 (by simp)
      obtain ⟨f, _, hf, _, _⟩ := scope_verb v _ r3 hr3 (hus v (by simp))
      exact ⟨f, v.item_verb (hus v (by simp)) f hf⟩
    have hrest : (∃ h r, (us.map Word.item).reverse = V h :: r) ∨
        (true = false ∧ ∃ y, (us.map Word.item).reverse = [y]) ∨ (true = true ∧ (us.map Word.item).reverse = []) := by
      cases us using List.reverseRecOn with
      | nil => exact .inr (.inr ⟨rfl, rfl⟩)
      | append_singleton us v _ =>
        obtain ⟨f, hf⟩ := hus' v (by simp)
        exact .inl ⟨f, (us.map Word.item).reverse, by simp [hf]⟩
    obtain ⟨n', hn', e1⟩ := arrays_join_step true w ws r hr hwv g ((us.map Word.item).reverse) hrest core t0 hrep n
      (by simp at hn ⊢; omega)
    have e2 := ih u (w :: ws) hs2 (fun v hv => hus v (by simp [hv])) (fun _ => huv) [N r] .verb
      (fun h => by rw [huv] at h; simp at h) (.inr (rep_verb w ws r hr)) n' (by simp at hn' ⊢; omega)
    have e3 : core ++ ((us ++ [u] ++ [w]).map Word.item).reverse =
        core ++ w.item :: V g :: ((us.map Word.item).reverse) := by simp [u.item_verb huv g hg]
    rw [e3, e1, ← e2]
    simp [u.item_verb huv g hg]

end Iv

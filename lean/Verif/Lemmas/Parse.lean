import Verif.SpecParse
import Mathlib.Data.List.Induction
/-
Words of a statement, and how the stack of the parser evolves (for C46).
-/
namespace Iv
variable {D : Type}

theorem clsOf_op (b : Bool) : (clsOf b).isOp = false := by cases b <;> rfl
theorem clsOf_ne_adverb (b : Bool) : clsOf b ≠ .adverb := by cases b <;> simp [clsOf]
theorem clsOf_ne_conj (b : Bool) : clsOf b ≠ .conj := by cases b <;> simp [clsOf]

/-- items that are no operators -/
def Plain (l : List (Item D)) : Prop := ∀ i ∈ l, i.cls.isOp = false

/-! ### Operators -/

theorem mop1_skip (n : Nat) (ls : List (Item D)) (b : Bool) (h : ∀ d, ls[2]? = some d → d.cls ≠ .adverb) :
    mopReduce n 1 ls b = .ok (b, ls) := by
  cases n with
  | zero => rfl
  | succ n =>
    rw [mopReduce]
    split
    · rename_i x d hx hd
      rw [if_pos (h d hd)]
    · rfl

theorem mop2_skip (n : Nat) (ls : List (Item D)) (b : Bool) (h : ∀ d, ls[3]? = some d → d.cls ≠ .adverb) :
    mopReduce n 2 ls b = .ok (b, ls) := by
  cases n with
  | zero => rfl
  | succ n =>
    rw [mopReduce]
    split
    · rename_i x d hx hd
      rw [if_pos (h d hd)]
    · rfl

theorem mop_op0 (n i : Nat) (ls : List (Item D)) (b : Bool) (h : opAt ls 0 = true) : mopReduce n i ls b = .ok (b, ls) := by
  cases n with
  | zero => rfl
  | succ n =>
    rw [mopReduce]
    split
    · split
      · rfl
      · rw [if_pos (by simp [h])]
    · rfl

theorem mop_op1 (n : Nat) (ls : List (Item D)) (b : Bool) (h : opAt ls 1 = true) : mopReduce n 1 ls b = .ok (b, ls) := by
  cases n with
  | zero => rfl
  | succ n =>
    rw [mopReduce]
    split
    · split
      · rfl
      · rw [if_pos (by simp [h])]
    · rfl

theorem dop1_skip (ls : List (Item D)) (h : ∀ d, ls[2]? = some d → d.cls ≠ .conj) : dopReduce 1 ls = .ok (false, ls) := by
  rw [dopReduce]
  split
  · rename_i x d y hx hd hy
    rw [if_pos (h d hd)]
  · rfl

theorem dop_op0 (i : Nat) (ls : List (Item D)) (h : opAt ls 0 = true) : dopReduce i ls = .ok (false, ls) := by
  rw [dopReduce]
  split
  · split
    · rfl
    · rw [if_pos (by simp [h])]
  · rfl

theorem dop_op1 (ls : List (Item D)) (h : opAt ls 1 = true) : dopReduce 1 ls = .ok (false, ls) := by
  rw [dopReduce]
  split
  · split
    · rfl
    · rw [if_pos (by simp [h])]
  · rfl

theorem opRound_false (ls l2 l4 : List (Item D)) (b2 b4 : Bool) (h1 : mopReduce ls.length 1 ls false = .ok (b2, l2))
    (h2 : dopReduce 1 l2 = .ok (b4, l4)) : opRound false ls = .ok (b2 || b4, l4) := by
  simp only [opRound, Bool.false_eq_true, if_false, bind, Except.bind, h1, h2, Bool.false_or, Bool.or_false]

/-- nothing happens if the leftmost item or its neighbour is an operator -/
theorem opRound_idle (ls : List (Item D)) (h : opAt ls 0 = true ∨ opAt ls 1 = true) :
    opRound false ls = .ok (false, ls) := by
  rcases h with h | h
  · exact opRound_false ls ls ls false false (mop_op0 _ _ _ _ h) (dop_op0 _ _ h)
  · exact opRound_false ls ls ls false false (mop_op1 _ _ _ h) (dop_op1 _ h)

/-- nothing happens if there is no operator behind the second item -/
theorem opRound_plain (ls : List (Item D)) (h : ∀ d, ls[2]? = some d → d.cls.isOp = false) :
    opRound false ls = .ok (false, ls) := by
  have h1 : ∀ d, ls[2]? = some d → d.cls ≠ .adverb := by
    intro d hd e; have := h d hd; rw [e] at this; simp [Cls.isOp] at this
  have h2 : ∀ d, ls[2]? = some d → d.cls ≠ .conj := by
    intro d hd e; have := h d hd; rw [e] at this; simp [Cls.isOp] at this
  exact opRound_false ls ls ls false false (mop1_skip _ _ _ h1) (dop1_skip _ h2)

theorem resolveOperators_idle (last : Bool) (n : Nat) (ls : List (Item D)) (h : opRound last ls = .ok (false, ls)) :
    resolveOperators last n ls = .ok ls := by
  cases n with
  | zero => rfl
  | succ n => simp only [resolveOperators, h, bind, Except.bind]; rfl

theorem resolveOperators_step (last : Bool) (n : Nat) (ls ls' : List (Item D)) (h : opRound last ls = .ok (true, ls')) :
    resolveOperators last (n + 1) ls = resolveOperators last n ls' := by
  simp only [resolveOperators, h, bind, Except.bind]; rfl

theorem Plain.get (l : List (Item D)) (h : Plain l) (i : Nat) (d : Item D) (hd : l[i]? = some d) : d.cls.isOp = false :=
  h d (List.mem_of_getElem? hd)

theorem isOp_ne_adverb {c : Cls} (h : c.isOp = false) : c ≠ .adverb := by intro e; rw [e] at h; simp [Cls.isOp] at h
theorem isOp_ne_conj {c : Cls} (h : c.isOp = false) : c ≠ .conj := by intro e; rw [e] at h; simp [Cls.isOp] at h

theorem mop1_step (n : Nat) (x : Item D) (hx : x.cls.isOp = false) (p : Expr D) (b : Bool) (s : String) (l : List (Item D)) (r : Bool)
    (h : ∀ d, l[1]? = some d → d.cls ≠ .adverb) :
    mopReduce (n + 1) 1 (x :: ⟨p, clsOf b⟩ :: ⟨.fn (.der s none none), .adverb⟩ :: l) r =
      .ok (true, x :: ⟨.fn (.der s (some p) none), clsOf true⟩ :: l) := by
  rw [mopReduce]
  simp only [List.getElem?_cons_succ, List.getElem?_cons_zero, ne_eq, not_true_eq_false, if_false, opAt, hx, clsOf_op,
    Bool.and_false, Bool.or_false, Bool.false_eq_true, setLo, bind, Except.bind, List.set_cons_succ, List.set_cons_zero,
    List.eraseIdx_cons_succ, List.eraseIdx_cons_zero]
  exact mop2_skip _ _ _ (by intro d hd; exact h d (by simpa using hd))

theorem dop1_step (x : Item D) (hx : x.cls.isOp = false) (p q : Expr D) (b bq : Bool) (s : String) (l : List (Item D)) :
    dopReduce 1 (x :: ⟨p, clsOf b⟩ :: ⟨.fn (.der s none none), .conj⟩ :: ⟨q, clsOf bq⟩ :: l) =
      .ok (true, x :: ⟨.fn (.der s (some p) (some q)), clsOf true⟩ :: l) := by
  rw [dopReduce]
  simp only [List.getElem?_cons_succ, List.getElem?_cons_zero, ne_eq, not_true_eq_false, if_false, opAt, hx, clsOf_op,
    Bool.and_false, Bool.or_false, Bool.false_eq_true, setLoRo, bind, Except.bind, List.set_cons_succ, List.set_cons_zero,
    List.eraseIdx_cons_succ, List.eraseIdx_cons_zero]
  rfl

theorem noTriple_tail (o : OpUse D) (os : List (OpUse D)) (h : noTriple (o :: os) = true) : noTriple os = true := by
  unfold noTriple at h
  split at h
  · simp at h
  · rename_i h'; cases h'; exact h
  · rename_i h'; cases h'

/-- A complete phrase is resolved when the next item that is no operator is pushed. -/
theorem resolve_phrase (x : Item D) (hx : x.cls.isOp = false) (ops : List (OpUse D)) (core : List (Item D)) (hc : Plain core)
    (ht : noTriple ops = true) (p : Expr D) (b : Bool) (n : Nat) (hn : ops.length < n) :
    resolveOperators false n (x :: ⟨p, clsOf b⟩ :: (opsItems ops ++ core)) =
      .ok (x :: ⟨derive p ops, clsOf (b || !ops.isEmpty)⟩ :: core) := by
  induction n generalizing ops p b with
  | zero => omega
  | succ n ih =>
    match ops, ht, hn with
    | [], _, _ =>
      simp only [opsItems, List.nil_append, derive, List.isEmpty_nil, Bool.not_true, Bool.or_false]
      apply resolveOperators_idle
      apply opRound_plain
      intro d hd
      exact hc.get _ 0 d hd
    | .dop s q bq :: rest, ht, hn =>
      refine (resolveOperators_step false n _ _ (opRound_false _ _ _ false true
        (mop1_skip _ _ _ (by intro d hd; simp [opsItems, OpUse.items] at hd; rw [← hd]; simp))
        (dop1_step x hx p q b bq s (opsItems rest ++ core)))).trans ?_
      rw [ih rest (noTriple_tail _ _ ht) _ true (by simp at hn; omega)]
      simp [derive]
    | .mop s :: rest, ht, hn =>
      by_cases hd : ∃ s' q bq r', rest = .dop s' q bq :: r'
      · obtain ⟨s', q, bq, r', rfl⟩ := hd
        refine (resolveOperators_step false n _ _ (opRound_false _ _ _ true true
          (mop1_step _ x hx p b s (opsItems (.dop s' q bq :: r') ++ core) false
            (by intro d hd; simp [opsItems, OpUse.items] at hd; rw [← hd]; exact clsOf_ne_adverb bq))
          (dop1_step x hx _ q true bq s' (opsItems r' ++ core)))).trans ?_
        rw [ih r' (noTriple_tail _ _ (noTriple_tail _ _ ht)) _ true (by simp at hn; omega)]
        simp [derive]
      · have h3 : ∀ d, (opsItems rest ++ core)[1]? = some d → d.cls ≠ .adverb := by
          intro d hd'
          match rest, hd, ht, hd' with
          | [], _, _, hd' => exact isOp_ne_adverb (hc.get _ 1 d hd')
          | [.mop _], _, _, hd' => exact isOp_ne_adverb (hc.get _ 0 d (by simpa [opsItems, OpUse.items] using hd'))
          | .mop _ :: .mop _ :: _, _, ht, _ => simp [noTriple] at ht
          | .mop _ :: .dop _ _ _ :: _, _, _, hd' =>
            simp [opsItems, OpUse.items] at hd'
            rw [← hd']; simp
          | .dop _ _ _ :: _, hd, _, _ => exact absurd ⟨_, _, _, _, rfl⟩ hd
        have h4 : ∀ d, (opsItems rest ++ core)[0]? = some d → d.cls ≠ .conj := by
          intro d hd'
          match rest, hd, hd' with
          | [], _, hd' => exact isOp_ne_conj (hc.get _ 0 d hd')
          | .mop _ :: _, _, hd' =>
            simp [opsItems, OpUse.items] at hd'
            rw [← hd']; simp
          | .dop _ _ _ :: _, hd, _ => exact absurd ⟨_, _, _, _, rfl⟩ hd
        refine (resolveOperators_step false n _ _ (opRound_false _ _ _ true false
          (mop1_step _ x hx p b s (opsItems rest ++ core) false h3)
          (dop1_skip _ (by intro d hd; exact h4 d (by simpa using hd))))).trans ?_
        rw [ih rest (noTriple_tail _ _ ht) _ true (by simp at hn; omega)]
        simp [derive]


/-! ### The end of a statement: operators -/

theorem opsItems_get1 (ops : List (OpUse D)) (core : List (Item D)) (hc : Plain core) :
    (∀ d, (opsItems ops ++ core)[1]? = some d → d.cls ≠ .adverb ∧ d.cls ≠ .conj) ∨
      (∃ d, (opsItems ops ++ core)[0]? = some d ∧ d.cls.isOp = true) := by
  match ops with
  | [] => exact .inl (fun d hd => ⟨isOp_ne_adverb (hc.get _ 1 d hd), isOp_ne_conj (hc.get _ 1 d hd)⟩)
  | .mop s :: r => exact .inr ⟨_, rfl, rfl⟩
  | .dop s q b :: r => exact .inr ⟨_, rfl, rfl⟩

theorem mop1_word (n : Nat) (p : Item D) (ops : List (OpUse D)) (core : List (Item D)) (hc : Plain core) (r : Bool) :
    mopReduce n 1 (p :: (opsItems ops ++ core)) r = .ok (r, p :: (opsItems ops ++ core)) := by
  rcases opsItems_get1 ops core hc with h | ⟨d, hd, ho⟩
  · exact mop1_skip _ _ _ (fun d hd => (h d (by simpa using hd)).1)
  · exact mop_op1 _ _ _ (by simp only [opAt, List.getElem?_cons_succ, hd, ho])

theorem dop1_word (p : Item D) (ops : List (OpUse D)) (core : List (Item D)) (hc : Plain core) :
    dopReduce 1 (p :: (opsItems ops ++ core)) = .ok (false, p :: (opsItems ops ++ core)) := by
  rcases opsItems_get1 ops core hc with h | ⟨d, hd, ho⟩
  · exact dop1_skip _ (fun d hd => (h d (by simpa using hd)).2)
  · exact dop_op1 _ (by simp only [opAt, List.getElem?_cons_succ, hd, ho])

theorem opRound_true (ls l1 l2 l3 l4 : List (Item D)) (b1 b2 b3 b4 : Bool) (h1 : mopReduce ls.length 0 ls false = .ok (b1, l1))
    (h2 : mopReduce l1.length 1 l1 false = .ok (b2, l2)) (h3 : dopReduce 0 l2 = .ok (b3, l3))
    (h4 : dopReduce 1 l3 = .ok (b4, l4)) : opRound true ls = .ok (b1 || b2 || b3 || b4, l4) := by
  simp only [opRound, if_true, bind, Except.bind, h1, h2, h3, h4]

theorem mop0_step (n : Nat) (p : Expr D) (b : Bool) (s : String) (ops : List (OpUse D)) (core : List (Item D)) (hc : Plain core) :
    mopReduce (n + 1) 0 (⟨p, clsOf b⟩ :: (opsItems (.mop s :: ops) ++ core)) false =
      .ok (true, ⟨.fn (.der s (some p) none), clsOf true⟩ :: (opsItems ops ++ core)) := by
  rw [mopReduce]
  simp only [opsItems, OpUse.items, List.cons_append, List.nil_append, List.getElem?_cons_succ, List.getElem?_cons_zero, ne_eq,
    not_true_eq_false, if_false, opAt, clsOf_op, setLo, bind, Except.bind, List.set_cons_zero,
    List.eraseIdx_cons_succ, List.eraseIdx_cons_zero]
  exact mop1_word n _ ops core hc true

theorem mop0_skip (n : Nat) (ls : List (Item D)) (b : Bool) (h : ∀ d, ls[1]? = some d → d.cls ≠ .adverb) :
    mopReduce n 0 ls b = .ok (b, ls) := by
  cases n with
  | zero => rfl
  | succ n =>
    rw [mopReduce]
    split
    · rename_i x d hx hd
      rw [if_pos (h d hd)]
    · rfl

theorem dop0_step (p q : Expr D) (b bq : Bool) (s : String) (l : List (Item D)) :
    dopReduce 0 (⟨p, clsOf b⟩ :: ⟨.fn (.der s none none), .conj⟩ :: ⟨q, clsOf bq⟩ :: l) =
      .ok (true, ⟨.fn (.der s (some p) (some q)), clsOf true⟩ :: l) := by
  rw [dopReduce]
  simp only [List.getElem?_cons_succ, List.getElem?_cons_zero, ne_eq, not_true_eq_false, if_false, opAt, clsOf_op, setLoRo,
    bind, Except.bind, List.set_cons_zero, List.eraseIdx_cons_succ, List.eraseIdx_cons_zero]
  rfl

theorem dop0_skip (ls : List (Item D)) (h : ∀ d, ls[1]? = some d → d.cls ≠ .conj) : dopReduce 0 ls = .ok (false, ls) := by
  rw [dopReduce]
  split
  · rename_i x d y hx hd hy
    rw [if_pos (h d hd)]
  · rfl

/-- At the end of the statement the leftmost phrase is resolved. -/
theorem resolve_last (ops : List (OpUse D)) (core : List (Item D)) (hc : Plain core) (p : Expr D) (b : Bool) (n : Nat)
    (hn : ops.length < n) :
    resolveOperators true n (⟨p, clsOf b⟩ :: (opsItems ops ++ core)) =
      .ok (⟨derive p ops, clsOf (b || !ops.isEmpty)⟩ :: core) := by
  induction n generalizing ops p b with
  | zero => omega
  | succ n ih =>
    match ops, hn with
    | [], _ =>
      simp only [derive, List.isEmpty_nil, Bool.not_true, Bool.or_false]
      apply resolveOperators_idle
      exact opRound_true _ _ _ _ _ false false false false
        (mop0_skip _ _ _ (fun d hd => isOp_ne_adverb (hc.get _ 0 d hd)))
        (mop1_word _ _ [] core hc false)
        (dop0_skip _ (fun d hd => isOp_ne_conj (hc.get _ 0 d hd)))
        (dop1_word _ [] core hc)
    | .dop s q bq :: rest, hn =>
      refine (resolveOperators_step true n _ _ (opRound_true _ _ _ _ _ false false true false
        (mop0_skip _ _ _ (by intro d hd; simp [opsItems, OpUse.items] at hd; rw [← hd]; simp))
        (mop1_word _ _ (.dop s q bq :: rest) core hc false)
        (dop0_step p q b bq s (opsItems rest ++ core))
        (dop1_word _ rest core hc))).trans ?_
      rw [ih rest _ true (by simp at hn; omega)]
      simp [derive]
    | .mop s :: rest, hn =>
      by_cases hd : ∃ s' q bq r', rest = .dop s' q bq :: r'
      · obtain ⟨s', q, bq, r', rfl⟩ := hd
        refine (resolveOperators_step true n _ _ (opRound_true _ _ _ _ _ true false true false
          (mop0_step _ p b s _ core hc)
          (mop1_word _ _ (.dop s' q bq :: r') core hc false)
          (dop0_step _ q true bq s' (opsItems r' ++ core))
          (dop1_word _ r' core hc))).trans ?_
        rw [ih r' _ true (by simp at hn; omega)]
        simp [derive]
      · have h4 : ∀ d, (opsItems rest ++ core)[0]? = some d → d.cls ≠ .conj := by
          intro d hd'
          match rest, hd, hd' with
          | [], _, hd' => exact isOp_ne_conj (hc.get _ 0 d hd')
          | .mop _ :: _, _, hd' =>
            simp [opsItems, OpUse.items] at hd'
            rw [← hd']; simp
          | .dop _ _ _ :: _, hd, _ => exact absurd ⟨_, _, _, _, rfl⟩ hd
        refine (resolveOperators_step true n _ _ (opRound_true _ _ _ _ _ true false false false
          (mop0_step _ p b s _ core hc)
          (mop1_word _ _ rest core hc false)
          (dop0_skip _ (by intro d hd; exact h4 d (by simpa using hd)))
          (dop1_word _ rest core hc))).trans ?_
        rw [ih rest _ true (by simp at hn; omega)]
        simp [derive]

/-! ### Arrays -/

abbrev N (a : Expr D) : Item D := ⟨a, .noun⟩
abbrev V (f : Func D) : Item D := ⟨.fn f, .verb⟩

/-- The unresolved items (the rightmost first) end with a monadic operator, or with an operand that is alone or follows a dyadic
operator. -/
def TailOK : List (Item D) → Prop
  | [] => False
  | [t] => t.cls ≠ .conj
  | t :: u :: _ => t.cls ≠ .conj ∧ (t.cls.isOp = false → u.cls = .conj)

theorem arrays_stop (last : Bool) (n : Nat) (st : List (Item D)) (h1 : reducefA last st = .ok (false, st))
    (h2 : reduceAfA last st = .ok (false, st)) : resolveArrays last n st = .ok st := by
  cases n with
  | zero => rfl
  | succ n => simp only [resolveArrays, h1, h2, bind, Except.bind]; rfl

theorem arrays_step (last : Bool) (n : Nat) (st st1 st2 : List (Item D)) (b1 b2 : Bool) (h1 : reducefA last st = .ok (b1, st1))
    (h2 : reduceAfA last st1 = .ok (b2, st2)) (hb : (b1 || b2) = true) :
    resolveArrays last (n + 1) st = resolveArrays last n st2 := by
  simp only [resolveArrays, h1, h2, hb, bind, Except.bind]; rfl

theorem fA_no (r f : Item D) (rest : List (Item D))
    (h : f.cls = .verb → (rest = [] ∨ ∃ x xs, rest = x :: xs ∧ (x.cls = .noun ∨ x.cls = .conj))) :
    reducefA false (r :: f :: rest) = .ok (false, r :: f :: rest) := by
  unfold reducefA
  refine if_neg ?_
  rintro ⟨_, h1, h2⟩
  rcases h h1 with rfl | ⟨x, xs, rfl, hx | hx⟩
  · simp [fALeft] at h2
  · simp [fALeft, hx] at h2
  · simp [fALeft, hx] at h2

theorem fA_yes (last : Bool) (a : Expr D) (f : Func D) (t : Item D) (rest : List (Item D)) (h : t.cls = .verb ∨ t.cls = .adverb) :
    reducefA last (N a :: V f :: t :: rest) = .ok (true, N (.app f none a false) :: t :: rest) := by
  unfold reducefA
  exact if_pos ⟨rfl, rfl, h⟩

theorem AfA_no2 (r f : Item D) : reduceAfA false [r, f] = .ok (false, [r, f]) := rfl
theorem AfA_no1 (r : Item D) : reduceAfA false [r] = .ok (false, [r]) := rfl

theorem AfA_no_cls (r f l : Item D) (rest : List (Item D)) (h : ¬ (l.cls = .noun ∧ f.cls = .verb ∧ r.cls = .noun)) :
    reduceAfA false (r :: f :: l :: rest) = .ok (false, r :: f :: l :: rest) := by
  match rest with
  | [] => rfl
  | [y] => rfl
  | y :: x :: _ => exact if_pos h

theorem AfA_no_ctx (r f l y x : Item D) (rest : List (Item D)) (h : ¬ (y.cls = .verb ∨ (y.cls = .noun ∧ x.cls ≠ .conj))) :
    reduceAfA false (r :: f :: l :: y :: x :: rest) = .ok (false, r :: f :: l :: y :: x :: rest) := by
  simp only [reduceAfA, AfALeft, Bool.false_eq_true, false_or, if_neg h]
  split <;> rfl

theorem AfA_yes (a b : Expr D) (f : Func D) (y x : Item D) (rest : List (Item D))
    (h : y.cls = .verb ∨ (y.cls = .noun ∧ x.cls ≠ .conj)) :
    reduceAfA false (N a :: V f :: N b :: y :: x :: rest) = .ok (true, N (.app f (some b) a false) :: y :: x :: rest) := by
  simp only [reduceAfA, AfALeft, Bool.false_eq_true, false_or, if_pos h]
  rfl

theorem TailOK.head (t : Item D) (ts : List (Item D)) (h : TailOK (t :: ts)) : t.cls ≠ .conj := by
  cases ts with
  | nil => exact h
  | cons u r => exact h.1

theorem TailOK.next (t : Item D) (ts : List (Item D)) (h : TailOK (t :: ts)) (ho : t.cls.isOp = false) :
    ts = [] ∨ ∃ u us, ts = u :: us ∧ u.cls = .conj := by
  cases ts with
  | nil => exact .inl rfl
  | cons u r => exact .inr ⟨u, r, rfl, h.2 ho⟩

theorem arrays_N (n : Nat) (a : Expr D) (tail : List (Item D)) (ht : TailOK tail) :
    resolveArrays false n (N a :: tail) = .ok (N a :: tail) := by
  match tail, ht with
  | t :: ts, ht =>
    apply arrays_stop
    · apply fA_no
      intro hv
      rcases ht.next t ts (by rw [hv]; rfl) with h | ⟨u, us, h, hu⟩
      · exact .inl h
      · exact .inr ⟨u, us, h, .inr hu⟩
    · match ts, ht with
      | [], _ => rfl
      | u :: us, ht =>
        apply AfA_no_cls
        rintro ⟨h1, h2, _⟩
        have := ht.2 (by rw [h2]; rfl)
        rw [this] at h1; simp at h1

theorem arrays_VN (n : Nat) (a : Expr D) (f : Func D) (t : Item D) (ts : List (Item D)) (ht : TailOK (t :: ts)) :
    resolveArrays false (n + 1) (N a :: V f :: t :: ts) =
      .ok (if t.cls = .noun then N a :: V f :: t :: ts else N (.app f none a false) :: t :: ts) := by
  by_cases hn : t.cls = .noun
  · rw [if_pos hn]
    apply arrays_stop
    · exact fA_no _ _ _ (fun _ => .inr ⟨t, ts, rfl, .inl hn⟩)
    · rcases ht.next t ts (by rw [hn]; rfl) with rfl | ⟨u, us, rfl, hu⟩
      · rfl
      · cases us with
        | nil => rfl
        | cons w ws => exact AfA_no_ctx _ _ _ _ _ _ (by rw [hu]; simp)
  · rw [if_neg hn]
    have h1 := fA_yes false a f t ts (by have := ht.head; cases h : t.cls <;> simp_all)
    refine (arrays_step false n _ _ _ true false h1 ?_ rfl).trans (arrays_N n _ _ ht)
    cases ts with
    | nil => rfl
    | cons u us =>
      apply AfA_no_cls
      rintro ⟨h3, h4, _⟩
      have := ht.2 (by rw [h4]; rfl)
      rw [this] at h3; simp at h3

theorem arrays_NVN (n : Nat) (a b : Expr D) (f : Func D) (t : Item D) (ts : List (Item D)) (ht : TailOK (t :: ts)) :
    resolveArrays false (n + 1) (N a :: V f :: N b :: t :: ts) =
      .ok (if t.cls = .verb ∧ ts ≠ [] then N (.app f (some b) a false) :: t :: ts else N a :: V f :: N b :: t :: ts) := by
  have h1 : reducefA false (N a :: V f :: N b :: t :: ts) = .ok (false, N a :: V f :: N b :: t :: ts) :=
    fA_no _ _ _ (fun _ => .inr ⟨N b, _, rfl, .inl rfl⟩)
  cases ts with
  | nil =>
    rw [if_neg (by simp)]
    exact arrays_stop _ _ _ h1 rfl
  | cons u us =>
    by_cases hv : t.cls = .verb
    · rw [if_pos ⟨hv, by simp⟩]
      exact (arrays_step false n _ _ _ false true h1 (AfA_yes a b f t u us (.inl hv)) rfl).trans (arrays_N n _ _ ht)
    · rw [if_neg (by simp [hv])]
      refine arrays_stop _ _ _ h1 (AfA_no_ctx _ _ _ _ _ _ ?_)
      rintro (h | ⟨h2, h3⟩)
      · exact hv h
      · exact h3 (ht.2 (by rw [h2]; rfl))

theorem arrays_VVN (n : Nat) (a : Expr D) (f g : Func D) (x : Item D) (hx : x.cls ≠ .conj) :
    resolveArrays false (n + 2) [N a, V f, V g, x] =
      .ok (if x.cls = .noun then [N (.app f none a false), V g, x] else [N (.app g none (.app f none a false) false), x]) :=
  (arrays_step false (n + 1) _ _ _ true false (fA_yes false a f (V g) [x] (.inl rfl)) rfl rfl).trans
    (arrays_VN n _ g x [] hx)

theorem arrays_VNVN (n : Nat) (a b : Expr D) (f g : Func D) (x : Item D) (hx : x.cls ≠ .conj) :
    resolveArrays false (n + 2) [N a, V f, N b, V g, x] =
      .ok (if x.cls = .noun then [N (.app f (some b) a false), V g, x]
        else [N (.app g none (.app f (some b) a false) false), x]) :=
  (arrays_step false (n + 1) _ _ _ false true (fA_no _ _ _ (fun _ => .inr ⟨N b, _, rfl, .inl rfl⟩))
    (AfA_yes a b f (V g) x [] (.inl rfl)) rfl).trans (arrays_VN n _ g x [] hx)

/-! at the end of the statement -/

theorem last_N (n : Nat) (a : Expr D) : resolveArrays true n [N a] = .ok [N a] := by
  cases n <;> rfl

theorem last_VN (n : Nat) (a : Expr D) (f : Func D) : resolveArrays true (n + 1) [N a, V f] = .ok [N (.app f none a false)] :=
  (arrays_step true n _ [N (.app f none a false)] _ true false rfl rfl rfl).trans (last_N n _)

theorem last_NVN (n : Nat) (a b : Expr D) (f : Func D) :
    resolveArrays true (n + 1) [N a, V f, N b] = .ok [N (.app f (some b) a false)] :=
  (arrays_step true n _ [N a, V f, N b] _ false true rfl rfl rfl).trans (last_N n _)

theorem last_VVN (n : Nat) (a : Expr D) (f g : Func D) :
    resolveArrays true (n + 2) [N a, V f, V g] = .ok [N (.app g none (.app f none a false) false)] :=
  (arrays_step true (n + 1) [N a, V f, V g] [N (.app f none a false), V g] _ true false rfl rfl rfl).trans (last_VN n _ _)

theorem last_VNVN (n : Nat) (a b : Expr D) (f g : Func D) :
    resolveArrays true (n + 2) [N a, V f, N b, V g] = .ok [N (.app g none (.app f (some b) a false) false)] :=
  (arrays_step true (n + 1) _ [N a, V f, N b, V g] _ false true rfl rfl rfl).trans (last_VN n _ _)


/-! ### Scope -/

theorem scope_cons (w : Word D) (ws : List (Word D)) : scope (w :: ws) =
    if w.verb then
      match w.e, scope ws with
      | .fn f, some r => some (.app f none r false)
      | _, _ => none
    else
      match ws with
      | [] => some w.e
      | v :: vs =>
        if v.verb then
          match v.e, scope vs with
          | .fn f, some r => some (.app f (some w.e) r false)
          | _, _ => none
        else none := by
  cases ws <;> rfl

theorem scope_verb (w : Word D) (ws : List (Word D)) (e : Expr D) (h : scope (w :: ws) = some e) (hv : w.verb = true) :
    ∃ f r, w.e = .fn f ∧ scope ws = some r ∧ e = .app f none r false := by
  rw [scope_cons, if_pos hv] at h
  split at h
  · rename_i f r hf hr
    exact ⟨f, r, hf, hr, by simpa using h.symm⟩
  · simp at h

theorem scope_verb_mk (w : Word D) (ws : List (Word D)) (f : Func D) (r : Expr D) (hv : w.verb = true) (hf : w.e = .fn f)
    (hr : scope ws = some r) : scope (w :: ws) = some (.app f none r false) := by
  rw [scope_cons, if_pos hv, hf, hr]

theorem scope_noun (w : Word D) (ws : List (Word D)) (e : Expr D) (h : scope (w :: ws) = some e) (hv : w.verb = false) :
    (ws = [] ∧ e = w.e) ∨ ∃ v vs f r, ws = v :: vs ∧ v.verb = true ∧ v.e = .fn f ∧ scope vs = some r ∧ e = .app f (some w.e) r false := by
  rw [scope_cons, if_neg (by simp [hv])] at h
  cases ws with
  | nil => exact .inl ⟨rfl, by simpa using h.symm⟩
  | cons v vs =>
    simp only at h
    split at h
    · rename_i hvv
      split at h
      · rename_i f r hf hr
        exact .inr ⟨v, vs, f, r, rfl, hvv, hf, hr, by simpa using h.symm⟩
      · simp at h
    · simp at h

theorem scope_noun_mk (w v : Word D) (vs : List (Word D)) (f : Func D) (r : Expr D) (hw : w.verb = false) (hv : v.verb = true)
    (hf : v.e = .fn f) (hr : scope vs = some r) : scope (w :: v :: vs) = some (.app f (some w.e) r false) := by
  rw [scope_cons, if_neg (by simp [hw])]
  simp only [hv, if_true, hf, hr]

theorem scope_tail (w : Word D) (ws : List (Word D)) (e : Expr D) (h : scope (w :: ws) = some e) (hne : ws ≠ []) :
    ∃ r, scope ws = some r := by
  cases hv : w.verb with
  | true => obtain ⟨f, r, _, hr, _⟩ := scope_verb w ws e h hv; exact ⟨r, hr⟩
  | false =>
    rcases scope_noun w ws e h hv with ⟨h, _⟩ | ⟨v, vs, f, r, rfl, hvv, hf, hr, _⟩
    · exact absurd h hne
    · exact ⟨_, scope_verb_mk v vs f r hvv hf hr⟩

theorem Word.item_noun (w : Word D) (h : w.verb = false) : w.item = N w.e := by simp [Word.item, h, clsOf]
theorem Word.item_verb (w : Word D) (h : w.verb = true) (f : Func D) (hf : w.e = .fn f) : w.item = V f := by
  simp [Word.item, h, clsOf, hf]

/-- The resolved part of the stack (the rightmost item first) stands for the words: the words on the right are combined to one noun
according to their scope, in front of it there are none, a verb, or a noun and a verb.  A noun as the next item (class `c`) must see
the verb. -/
inductive Rep (c : Cls) : List (Word D) → List (Item D) → Prop
  | all (ws a) : scope ws = some a → (c = .noun → ∀ w, ws.head? = some w → w.verb = false) → Rep c ws [N a]
  | verb (v ws a f) : v.verb = true → v.e = .fn f → scope ws = some a → Rep c (v :: ws) [N a, V f]
  | noun (n v ws a f) : n.verb = false → v.verb = true → v.e = .fn f → scope ws = some a → Rep c (n :: v :: ws) [N a, V f, N n.e]

theorem Rep.plain {c : Cls} {ws : List (Word D)} {core : List (Item D)} (h : Rep c ws core) : Plain core := by
  cases h <;> intro i hi <;> simp only [List.mem_cons, List.not_mem_nil, or_false] at hi
  · subst hi; rfl
  · rcases hi with h | h <;> subst h <;> rfl
  · rcases hi with h | h | h <;> subst h <;> rfl

theorem Rep.ne_nil {c : Cls} {ws : List (Word D)} {core : List (Item D)} (h : Rep c ws core) : core ≠ [] := by
  cases h <;> simp

/-- pushing an item to unresolved items -/
theorem arrays_grow (t : Item D) (ts : List (Item D)) (ht : TailOK (t :: ts)) (ws : List (Word D)) (core : List (Item D))
    (h : Rep t.cls ws core) (n : Nat) :
    ∃ core', resolveArrays false (n + 1) (core ++ t :: ts) = .ok (core' ++ t :: ts) ∧ Rep t.cls ws core' := by
  cases h with
  | all _ a hs hw => exact ⟨[N a], arrays_N (n + 1) a _ ht, .all _ _ hs hw⟩
  | verb v ws a f hv hf hs =>
    refine ⟨if t.cls = .noun then [N a, V f] else [N (.app f none a false)], (arrays_VN n a f t ts ht).trans ?_, ?_⟩
    · split <;> rfl
    · split
      · exact .verb _ _ _ _ hv hf hs
      · rename_i hn
        exact .all _ _ (scope_verb_mk v ws f a hv hf hs) (fun h => absurd h hn)
  | noun m v ws a f hm hv hf hs =>
    refine ⟨if t.cls = .verb ∧ ts ≠ [] then [N (.app f (some m.e) a false)] else [N a, V f, N m.e], (arrays_NVN n a m.e f t ts ht).trans ?_, ?_⟩
    · split <;> rfl
    · split
      · rename_i h
        exact .all _ _ (scope_noun_mk m v ws f a hm hv hf hs) (fun h' => absurd h' (by rw [h.1]; simp))
      · exact .noun _ _ _ _ _ hm hv hf hs

/-- a word joins the resolved part -/
theorem arrays_join (w : Word D) (ws : List (Word D)) (e : Expr D) (hs : scope (w :: ws) = some e) (x : Item D) (hx : x.cls ≠ .conj)
    (core : List (Item D)) (t0 : Cls) (ht0 : w.verb = false → t0 = .noun)
    (h : (ws = [] ∧ core = []) ∨ Rep t0 ws core) (n : Nat) :
    ∃ core', resolveArrays false (n + 2) (core ++ [w.item, x]) = .ok (core' ++ [x]) ∧ Rep x.cls (w :: ws) core' := by
  rcases h with ⟨rfl, rfl⟩ | h
  · cases hv : w.verb with
    | true => obtain ⟨f, r, _, hr, _⟩ := scope_verb w [] e hs hv; simp [scope] at hr
    | false =>
      rw [w.item_noun hv]
      refine ⟨[N w.e], arrays_N (n + 2) w.e [x] hx, .all _ _ ?_ ?_⟩
      · rw [scope_cons, if_neg (by simp [hv])]
      · rintro _ w' hw'; simp at hw'; rw [← hw']; exact hv
  · cases hv : w.verb with
    | true =>
      obtain ⟨g, r, hg, hr, he⟩ := scope_verb w ws e hs hv
      rw [w.item_verb hv g hg]
      cases h with
      | all _ a hs' hw =>
        refine ⟨if x.cls = .noun then [N a, V g] else [N (.app g none a false)], (arrays_VN (n + 1) a g x [] hx).trans ?_, ?_⟩
        · split <;> rfl
        · split
          · exact .verb _ _ _ _ hv hg hs'
          · rename_i hn
            exact .all _ _ (scope_verb_mk w ws g a hv hg hs') (fun h => absurd h hn)
      | verb v ws a f hv' hf hs' =>
        refine ⟨if x.cls = .noun then [N (.app f none a false), V g] else [N (.app g none (.app f none a false) false)], (arrays_VVN n a f g x hx).trans ?_, ?_⟩
        · split <;> rfl
        · have h1 := scope_verb_mk v ws f a hv' hf hs'
          split
          · exact .verb _ _ _ _ hv hg h1
          · rename_i hn
            exact .all _ _ (scope_verb_mk w _ g _ hv hg h1) (fun h => absurd h hn)
      | noun m v ws a f hm hv' hf hs' =>
        refine ⟨if x.cls = .noun then [N (.app f (some m.e) a false), V g] else [N (.app g none (.app f (some m.e) a false) false)], (arrays_VNVN n a m.e f g x hx).trans ?_, ?_⟩
        · split <;> rfl
        · have h1 := scope_noun_mk m v ws f a hm hv' hf hs'
          split
          · exact .verb _ _ _ _ hv hg h1
          · rename_i hn
            exact .all _ _ (scope_verb_mk w _ g _ hv hg h1) (fun h => absurd h hn)
    | false =>
      rw [w.item_noun hv]
      have ht := ht0 hv
      subst ht
      rcases scope_noun w ws e hs hv with ⟨rfl, _⟩ | ⟨v, vs, f, r, rfl, hvv, hf, hr, _⟩
      · cases h with
        | all _ a hs' hw => simp [scope] at hs'
      · cases h with
        | all _ a hs' hw =>
          have := hw rfl v rfl
          rw [hvv] at this; simp at this
        | verb v ws a f hv' hf' hs' =>
          refine ⟨[N a, V _, N w.e], (arrays_NVN (n + 1) a w.e _ x [] hx).trans ?_, .noun w _ _ _ _ hv hv' hf' hs'⟩
          rw [if_neg (by simp)]; rfl
        | noun m v ws a f hm hv' hf' hs' => rw [hm] at hvv; simp at hvv

/-- the last reduction -/
theorem arrays_end (w : Word D) (ws : List (Word D)) (e : Expr D) (hs : scope (w :: ws) = some e)
    (core : List (Item D)) (t0 : Cls) (ht0 : w.verb = false → t0 = .noun)
    (h : (ws = [] ∧ core = []) ∨ Rep t0 ws core) (n : Nat) :
    resolveArrays true (n + 2) (core ++ [w.item]) = .ok [N e] := by
  rcases h with ⟨rfl, rfl⟩ | h
  · cases hv : w.verb with
    | true => obtain ⟨f, r, _, hr, _⟩ := scope_verb w [] e hs hv; simp [scope] at hr
    | false =>
      rw [w.item_noun hv]
      rw [scope_cons, if_neg (by simp [hv])] at hs
      simp only [Option.some.injEq] at hs
      rw [← hs]
      exact last_N _ _
  · cases hv : w.verb with
    | true =>
      obtain ⟨g, r, hg, hr, he⟩ := scope_verb w ws e hs hv
      rw [w.item_verb hv g hg, he]
      cases h with
      | all _ a hs' hw => rw [hs'] at hr; cases hr; exact last_VN _ _ _
      | verb v ws a f hv' hf hs' =>
        rw [scope_verb_mk v ws f a hv' hf hs'] at hr; cases hr
        exact last_VVN _ _ _ _
      | noun m v ws a f hm hv' hf hs' =>
        rw [scope_noun_mk m v ws f a hm hv' hf hs'] at hr; cases hr
        exact last_VNVN _ _ _ _ _
    | false =>
      rw [w.item_noun hv]
      have ht := ht0 hv
      subst ht
      rcases scope_noun w ws e hs hv with ⟨rfl, _⟩ | ⟨v, vs, f, r, rfl, hvv, hf, hr, he⟩
      · cases h with
        | all _ a hs' hw => simp [scope] at hs'
      · cases h with
        | all _ a hs' hw =>
          have := hw rfl v rfl
          rw [hvv] at this; simp at this
        | verb v ws a f' hv' hf' hs' =>
          rw [hs'] at hr; cases hr
          rw [hf'] at hf; cases hf
          rw [he]
          exact last_NVN _ _ _ _
        | noun m v ws a f hm hv' hf' hs' => rw [hm] at hvv; simp at hvv

end Iv

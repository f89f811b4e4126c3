import Verif.SpecParse
import Verif.Lemmas.ParseFuel
import Verif.Lemmas.ParseTrain
/-
The tokens of a statement: nested parts are found by the parser (C46).
-/
namespace Iv
variable {D : Type}

/-! ### Balanced tokens -/

def plainTok (t : Token) : Bool :=
  match t.t with
  | .symbol => true
  | .number => true
  | .string => true
  | .chars => true
  | .identifier => true
  | .self => true
  | _ => false

/-- Balanced tokens; `s` and `c` tell if there may be semicolons and colons or diamonds outside of nested parts. -/
inductive Nest : Bool → Bool → List Token → Prop
  | nil (s c) : Nest s c []
  | plain (s c t ts) : plainTok t = true → Nest s c ts → Nest s c (t :: ts)
  | semi (c ts) : Nest true c ts → Nest true c (tSemi :: ts)
  | colon (s ts) : Nest s true ts → Nest s true (tColon :: ts)
  | dia (s ts) : Nest s true ts → Nest s true (tDia :: ts)
  | paren (s c a ts) : Nest true false a → Nest s c ts → Nest s c (tLP :: (a ++ tRP :: ts))
  | brack (s c a ts) : Nest true false a → Nest s c ts → Nest s c (tLB :: (a ++ tRB :: ts))
  | brace (s c a ts) : Nest false true a → Nest s c ts → Nest s c (tLC :: (a ++ tRC :: ts))

theorem Nest.append {s c : Bool} {a b : List Token} (ha : Nest s c a) (hb : Nest s c b) : Nest s c (a ++ b) := by
  induction ha with
  | nil => exact hb
  | plain s c t ts h _ ih => exact .plain _ _ _ _ h (ih hb)
  | semi c ts _ ih => exact .semi _ _ (ih hb)
  | colon s ts _ ih => exact .colon _ _ (ih hb)
  | dia s ts _ ih => exact .dia _ _ (ih hb)
  | paren s c a ts h1 _ _ ih => rw [List.cons_append, List.append_assoc]; exact .paren _ _ _ _ h1 (ih hb)
  | brack s c a ts h1 _ _ ih => rw [List.cons_append, List.append_assoc]; exact .brack _ _ _ _ h1 (ih hb)
  | brace s c a ts h1 _ _ ih => rw [List.cons_append, List.append_assoc]; exact .brace _ _ _ _ h1 (ih hb)

theorem Nest.mono {s c : Bool} {a : List Token} (ha : Nest s c a) (s' c' : Bool) (hs : s = true → s' = true) (hc : c = true → c' = true) :
    Nest s' c' a := by
  induction ha with
  | nil => exact .nil _ _
  | plain s c t ts h _ ih => exact .plain _ _ _ _ h (ih hs hc)
  | semi c ts _ ih => have := hs rfl; subst this; exact .semi _ _ (ih (fun _ => rfl) hc)
  | colon s ts _ ih => have := hc rfl; subst this; exact .colon _ _ (ih hs (fun _ => rfl))
  | dia s ts _ ih => have := hc rfl; subst this; exact .dia _ _ (ih hs (fun _ => rfl))
  | paren s c a ts h1 _ _ ih => exact .paren _ _ _ _ h1 (ih hs hc)
  | brack s c a ts h1 _ _ ih => exact .brack _ _ _ _ h1 (ih hs hc)
  | brace s c a ts h1 _ _ ih => exact .brace _ _ _ _ h1 (ih hs hc)

theorem Nest.flatten {s c : Bool} (l : List (List Token)) (h : ∀ a ∈ l, Nest s c a) : Nest s c l.flatten := by
  induction l with
  | nil => exact .nil _ _
  | cons a l ih => exact (h a (by simp)).append (ih (fun b hb => h b (by simp [hb])))

/-- the last token of a statement is no semicolon -/
theorem Nest.last {s c : Bool} {a : List Token} (ha : Nest s c a) (hs : s = false) : (a.getLast?).map Token.t ≠ some .semicolon := by
  induction ha with
  | nil => simp
  | plain s c t ts h _ ih =>
    cases ts with
    | nil =>
      simp only [List.getLast?_singleton, Option.map_some, ne_eq, Option.some.injEq]
      intro h'; simp [plainTok, h'] at h
    | cons u us => rw [List.getLast?_cons_cons]; exact ih hs
  | semi c ts _ ih => simp at hs
  | colon s ts _ ih =>
    cases ts with
    | nil => simp
    | cons u us => rw [List.getLast?_cons_cons]; exact ih hs
  | dia s ts _ ih =>
    cases ts with
    | nil => simp
    | cons u us => rw [List.getLast?_cons_cons]; exact ih hs
  | paren s c a ts _ _ _ ih =>
    rw [← List.cons_append, List.getLast?_append]
    cases ts with
    | nil => simp
    | cons u us =>
      rw [List.getLast?_cons_cons]
      have := ih hs
      cases h : (u :: us).getLast? with
      | none => simp at h
      | some z => simpa [h] using this
  | brack s c a ts _ _ _ ih =>
    rw [← List.cons_append, List.getLast?_append]
    cases ts with
    | nil => simp
    | cons u us =>
      rw [List.getLast?_cons_cons]
      have := ih hs
      cases h : (u :: us).getLast? with
      | none => simp at h
      | some z => simpa [h] using this
  | brace s c a ts _ _ _ ih =>
    rw [← List.cons_append, List.getLast?_append]
    cases ts with
    | nil => simp
    | cons u us =>
      rw [List.getLast?_cons_cons]
      have := ih hs
      cases h : (u :: us).getLast? with
      | none => simp at h
      | some z => simpa [h] using this

/-! ### Splitting -/

theorem split_step (at_ : TT) (inc dec : List TT) (lv : Int) (cur : List Token) (t : Token) (ts : List Token)
    (h1 : t.t ∉ inc) (h2 : t.t ∉ dec) (h3 : lv = 0 → t.t ≠ at_) :
    splitTokens at_ inc dec lv cur (t :: ts) = splitTokens at_ inc dec lv (cur ++ [t]) ts := by
  rw [splitTokens]
  simp only [if_neg h1, if_neg h2]
  rw [if_neg (fun h => h3 h.1 h.2)]

theorem split_inc (at_ : TT) (inc dec : List TT) (lv : Int) (cur : List Token) (t : Token) (ts : List Token)
    (h1 : t.t ∈ inc) (h3 : t.t ≠ at_) :
    splitTokens at_ inc dec lv cur (t :: ts) = splitTokens at_ inc dec (lv + 1) (cur ++ [t]) ts := by
  rw [splitTokens]
  simp only [if_pos h1]
  rw [if_neg (fun h => h3 h.2)]

theorem split_dec (at_ : TT) (inc dec : List TT) (lv : Int) (cur : List Token) (t : Token) (ts : List Token)
    (h1 : t.t ∉ inc) (h2 : t.t ∈ dec) (h3 : t.t ≠ at_) :
    splitTokens at_ inc dec (lv + 1) cur (t :: ts) = splitTokens at_ inc dec lv (cur ++ [t]) ts := by
  rw [splitTokens]
  simp only [if_neg h1, if_pos h2]
  rw [if_neg (fun h => h3 h.2)]
  congr 1
  omega

theorem split_at (at_ : TT) (inc dec : List TT) (cur : List Token) (t : Token) (ts : List Token)
    (h1 : t.t ∉ inc) (h2 : t.t ∉ dec) (h3 : t.t = at_) :
    splitTokens at_ inc dec 0 cur (t :: ts) = cur :: splitTokens at_ inc dec 0 [] ts := by
  rw [splitTokens]
  simp only [if_neg h1, if_neg h2]
  exact if_pos ⟨trivial, h3⟩

theorem plain_cases (t : Token) (h : plainTok t = true) :
    t.t = .symbol ∨ t.t = .number ∨ t.t = .string ∨ t.t = .chars ∨ t.t = .identifier ∨ t.t = .self := by
  unfold plainTok at h
  split at h <;> simp_all

/-- semicolons in brackets and parentheses do not separate -/
theorem Nest.split_semi2 {s c : Bool} {ts : List Token} (h : Nest s c ts) (lv : Int) (h0 : 0 ≤ lv) (hl : s = true → 1 ≤ lv)
    (cur rest : List Token) :
    splitTokens .semicolon [.leftParen, .leftBrack] [.rightParen, .rightBrack] lv cur (ts ++ rest) =
      splitTokens .semicolon [.leftParen, .leftBrack] [.rightParen, .rightBrack] lv (cur ++ ts) rest := by
  induction h generalizing lv cur rest with
  | nil => simp
  | plain s c t ts ht _ ih =>
    rw [List.cons_append, split_step, ih lv h0 hl, List.append_assoc]; rfl
    all_goals rcases plain_cases t ht with e | e | e | e | e | e <;> simp [e]
  | semi c ts _ ih =>
    have := hl rfl
    rw [List.cons_append, split_step, ih lv h0 hl, List.append_assoc]; rfl
    · decide
    · decide
    · intro e; omega
  | colon s ts _ ih => rw [List.cons_append, split_step, ih lv h0 hl, List.append_assoc]; rfl; all_goals (first | decide | (intro _; decide))
  | dia s ts _ ih => rw [List.cons_append, split_step, ih lv h0 hl, List.append_assoc]; rfl; all_goals (first | decide | (intro _; decide))
  | paren s c a ts _ _ iha ih =>
    rw [List.cons_append, split_inc, List.append_assoc, iha (lv + 1) (by omega) (fun _ => by omega), List.cons_append, split_dec,
      ih lv h0 hl]
    · simp
    all_goals decide
  | brack s c a ts _ _ iha ih =>
    rw [List.cons_append, split_inc, List.append_assoc, iha (lv + 1) (by omega) (fun _ => by omega), List.cons_append, split_dec,
      ih lv h0 hl]
    · simp
    all_goals decide
  | brace s c a ts _ _ iha ih =>
    rw [List.cons_append, split_step, List.append_assoc, iha lv h0 (fun h => absurd h (by decide)), List.cons_append, split_step,
      ih lv h0 hl]
    · simp
    all_goals (first | decide | (intro _; decide))

/-- semicolons in parentheses do not separate the elements of a list -/
theorem Nest.split_semi1 {s c : Bool} {ts : List Token} (h : Nest s c ts) (lv : Int) (h0 : 0 ≤ lv)
    (hl : lv = 0 → s = false ∧ ∀ t ∈ ts, t.t ≠ .leftBrack) (cur rest : List Token) :
    splitTokens .semicolon [.leftParen] [.rightParen] lv cur (ts ++ rest) =
      splitTokens .semicolon [.leftParen] [.rightParen] lv (cur ++ ts) rest := by
  induction h generalizing lv cur rest with
  | nil => simp
  | plain s c t ts ht _ ih =>
    rw [List.cons_append, split_step, ih lv h0 (fun e => ⟨(hl e).1, fun t ht => (hl e).2 t (by simp [ht])⟩), List.append_assoc]; rfl
    all_goals rcases plain_cases t ht with e | e | e | e | e | e <;> simp [e]
  | semi c ts _ ih =>
    have h1 : lv ≠ 0 := fun e => absurd (hl e).1 (by decide)
    rw [List.cons_append, split_step, ih lv h0 (fun e => absurd e h1), List.append_assoc]; rfl
    · decide
    · decide
    · intro e; exact absurd e h1
  | colon s ts _ ih =>
    rw [List.cons_append, split_step, ih lv h0 (fun e => ⟨(hl e).1, fun t ht => (hl e).2 t (by simp [ht])⟩), List.append_assoc]; rfl
    all_goals (first | decide | (intro _; decide))
  | dia s ts _ ih =>
    rw [List.cons_append, split_step, ih lv h0 (fun e => ⟨(hl e).1, fun t ht => (hl e).2 t (by simp [ht])⟩), List.append_assoc]; rfl
    all_goals (first | decide | (intro _; decide))
  | paren s c a ts _ _ iha ih =>
    rw [List.cons_append, split_inc, List.append_assoc, iha (lv + 1) (by omega) (fun e => by omega), List.cons_append, split_dec,
      ih lv h0 (fun e => ⟨(hl e).1, fun t ht => (hl e).2 t (by simp [ht])⟩)]
    · simp
    all_goals decide
  | brack s c a ts _ _ iha ih =>
    have h1 : lv ≠ 0 := fun e => absurd rfl ((hl e).2 tLB (by simp))
    rw [List.cons_append, split_step, List.append_assoc, iha lv h0 (fun e => absurd e h1), List.cons_append, split_step,
      ih lv h0 (fun e => absurd e h1)]
    · simp
    all_goals (first | decide | (intro _; decide))
  | brace s c a ts _ _ iha ih =>
    rw [List.cons_append, split_step, List.append_assoc, iha lv h0 (fun e => ⟨rfl, fun t ht => (hl e).2 t (by simp [ht])⟩),
      List.cons_append, split_step, ih lv h0 (fun e => ⟨(hl e).1, fun t ht => (hl e).2 t (by simp [ht])⟩)]
    · simp
    all_goals (first | decide | (intro _; decide))

/-- colons and diamonds in braces do not separate -/
theorem Nest.split_brace {s c : Bool} {ts : List Token} (h : Nest s c ts) (at_ : TT) (ha : at_ = .colon ∨ at_ = .diamond) (lv : Int)
    (h0 : 0 ≤ lv) (hl : c = true → 1 ≤ lv) (cur rest : List Token) :
    splitTokens at_ [.leftBrace] [.rightBrace] lv cur (ts ++ rest) = splitTokens at_ [.leftBrace] [.rightBrace] lv (cur ++ ts) rest := by
  induction h generalizing lv cur rest with
  | nil => simp
  | plain s c t ts ht _ ih =>
    rw [List.cons_append, split_step, ih lv h0 hl, List.append_assoc]; rfl
    all_goals rcases plain_cases t ht with e | e | e | e | e | e <;> rcases ha with e' | e' <;> simp [e, e']
  | semi c ts _ ih =>
    rw [List.cons_append, split_step, ih lv h0 hl, List.append_assoc]; rfl
    · decide
    · decide
    · intro _; rcases ha with e' | e' <;> simp [e']
  | colon s ts _ ih =>
    have := hl rfl
    rw [List.cons_append, split_step, ih lv h0 hl, List.append_assoc]; rfl
    · decide
    · decide
    · intro e; omega
  | dia s ts _ ih =>
    have := hl rfl
    rw [List.cons_append, split_step, ih lv h0 hl, List.append_assoc]; rfl
    · decide
    · decide
    · intro e; omega
  | paren s c a ts _ _ iha ih =>
    rw [List.cons_append, split_step, List.append_assoc, iha lv h0 (fun h => absurd h (by decide)), List.cons_append, split_step,
      ih lv h0 hl]
    · simp
    all_goals (first | decide | (intro _; rcases ha with e' | e' <;> simp [e']))
  | brack s c a ts _ _ iha ih =>
    rw [List.cons_append, split_step, List.append_assoc, iha lv h0 (fun h => absurd h (by decide)), List.cons_append, split_step,
      ih lv h0 hl]
    · simp
    all_goals (first | decide | (intro _; rcases ha with e' | e' <;> simp [e']))
  | brace s c a ts _ _ iha ih =>
    rw [List.cons_append, split_inc, List.append_assoc, iha (lv + 1) (by omega) (fun _ => by omega), List.cons_append, split_dec,
      ih lv h0 hl]
    · simp
    all_goals (first | decide | (rcases ha with e' | e' <;> simp [e']))

/-! ### Matching parentheses -/

/-- a pair of parentheses, brackets or braces -/
def IsPair (left right : TT) : Prop :=
  (left = .leftParen ∧ right = .rightParen) ∨ (left = .leftBrack ∧ right = .rightBrack) ∨ (left = .leftBrace ∧ right = .rightBrace)

theorem match_step (left right : TT) (l : Nat) (inner : List Token) (t : Token) (ts : List Token) (h0 : t.t ≠ .endl) (h1 : t.t ≠ right)
    (h2 : t.t ≠ left) : matchParen left right l inner (t :: ts) = matchParen left right l (t :: inner) ts := by
  rw [matchParen, if_neg h0, if_neg h1, if_neg h2]

theorem match_right (left right : TT) (l : Nat) (inner : List Token) (t : Token) (ts : List Token) (h0 : t.t ≠ .endl) (h1 : t.t = right) :
    matchParen left right l inner (t :: ts) = matchParen left right (l + 1) (t :: inner) ts := by
  rw [matchParen, if_neg h0, if_pos h1]

theorem match_left (left right : TT) (l : Nat) (hl : 1 ≤ l) (inner : List Token) (t : Token) (ts : List Token) (h0 : t.t ≠ .endl)
    (h1 : t.t ≠ right) (h2 : t.t = left) :
    matchParen left right (l + 1) inner (t :: ts) = matchParen left right l (t :: inner) ts := by
  rw [matchParen, if_neg h0, if_neg h1, if_pos h2, if_neg (by omega)]
  rfl

theorem match_group (left right : TT) (hp : IsPair left right) (o cl : Token) (hoc : IsPair o.t cl.t) (l : Nat) (hl : 1 ≤ l)
    (inner a more : List Token)
    (ha : ∀ l, 1 ≤ l → ∀ inner more, matchParen left right l inner (a.reverse ++ more) = matchParen left right l (a ++ inner) more) :
    matchParen left right l inner (cl :: (a.reverse ++ o :: more)) = matchParen left right l (o :: (a ++ cl :: inner)) more := by
  by_cases h : cl.t = right
  · have ho : o.t = left := by
      rcases hp with ⟨e, e'⟩ | ⟨e, e'⟩ | ⟨e, e'⟩ <;> rcases hoc with ⟨f, f'⟩ | ⟨f, f'⟩ | ⟨f, f'⟩ <;> simp_all
    have hor : o.t ≠ right := by
      rcases hp with ⟨e, e'⟩ | ⟨e, e'⟩ | ⟨e, e'⟩ <;> rcases hoc with ⟨f, f'⟩ | ⟨f, f'⟩ | ⟨f, f'⟩ <;> simp_all
    have he : cl.t ≠ .endl ∧ o.t ≠ .endl := by
      rcases hoc with ⟨f, f'⟩ | ⟨f, f'⟩ | ⟨f, f'⟩ <;> simp [f, f']
    rw [match_right _ _ _ _ _ _ he.1 h, ha _ (by omega), match_left _ _ _ hl _ _ _ he.2 hor ho]
  · have h1 : cl.t ≠ left ∧ o.t ≠ right ∧ o.t ≠ left := by
      rcases hp with ⟨e, e'⟩ | ⟨e, e'⟩ | ⟨e, e'⟩ <;> rcases hoc with ⟨f, f'⟩ | ⟨f, f'⟩ | ⟨f, f'⟩ <;> simp_all
    have he : cl.t ≠ .endl ∧ o.t ≠ .endl := by
      rcases hoc with ⟨f, f'⟩ | ⟨f, f'⟩ | ⟨f, f'⟩ <;> simp [f, f']
    rw [match_step _ _ _ _ _ _ he.1 h h1.1, ha _ hl, match_step _ _ _ _ _ _ he.2 h1.2.1 h1.2.2]

theorem Nest.bal {s c : Bool} {ts : List Token} (h : Nest s c ts) (left right : TT) (hp : IsPair left right) (l : Nat) (hl : 1 ≤ l)
    (inner more : List Token) :
    matchParen left right l inner (ts.reverse ++ more) = matchParen left right l (ts ++ inner) more := by
  induction h generalizing l inner more with
  | nil => rfl
  | plain s c t ts ht _ ih =>
    rw [List.reverse_cons, List.append_assoc, ih l hl, List.singleton_append, match_step]; rfl
    all_goals
      rcases plain_cases t ht with e | e | e | e | e | e <;> rcases hp with ⟨f, f'⟩ | ⟨f, f'⟩ | ⟨f, f'⟩ <;> simp [e, f, f']
  | semi c ts _ ih =>
    rw [List.reverse_cons, List.append_assoc, ih l hl, List.singleton_append, match_step]; rfl
    all_goals rcases hp with ⟨f, f'⟩ | ⟨f, f'⟩ | ⟨f, f'⟩ <;> simp [f, f']
  | colon s ts _ ih =>
    rw [List.reverse_cons, List.append_assoc, ih l hl, List.singleton_append, match_step]; rfl
    all_goals rcases hp with ⟨f, f'⟩ | ⟨f, f'⟩ | ⟨f, f'⟩ <;> simp [f, f']
  | dia s ts _ ih =>
    rw [List.reverse_cons, List.append_assoc, ih l hl, List.singleton_append, match_step]; rfl
    all_goals rcases hp with ⟨f, f'⟩ | ⟨f, f'⟩ | ⟨f, f'⟩ <;> simp [f, f']
  | paren s c a ts _ _ iha ih =>
    have : (tLP :: (a ++ tRP :: ts)).reverse ++ more = ts.reverse ++ (tRP :: (a.reverse ++ tLP :: more)) := by simp
    rw [this, ih l hl, match_group left right hp tLP tRP (.inl ⟨rfl, rfl⟩) l hl _ _ _ iha]; simp
  | brack s c a ts _ _ iha ih =>
    have : (tLB :: (a ++ tRB :: ts)).reverse ++ more = ts.reverse ++ (tRB :: (a.reverse ++ tLB :: more)) := by simp
    rw [this, ih l hl, match_group left right hp tLB tRB (.inr (.inl ⟨rfl, rfl⟩)) l hl _ _ _ iha]; simp
  | brace s c a ts _ _ iha ih =>
    have : (tLC :: (a ++ tRC :: ts)).reverse ++ more = ts.reverse ++ (tRC :: (a.reverse ++ tLC :: more)) := by simp
    rw [this, ih l hl, match_group left right hp tLC tRC (.inr (.inr ⟨rfl, rfl⟩)) l hl _ _ _ iha]; simp

/-- the matching parenthesis is found -/
theorem Nest.matched {s c : Bool} {ts : List Token} (h : Nest s c ts) (o : Token) (left right : TT) (hp : IsPair left right)
    (ho : o.t = left) (more : List Token) : matchParen left right 1 [] (ts.reverse ++ o :: more) = some (ts, more) := by
  rw [h.bal left right hp 1 (Nat.le_refl _)]
  have h0 : o.t ≠ .endl ∧ o.t ≠ right := by rcases hp with ⟨e, e'⟩ | ⟨e, e'⟩ | ⟨e, e'⟩ <;> simp [ho, e, e']
  rw [matchParen, if_neg h0.1, if_neg h0.2, if_pos ho, if_pos (Nat.le_refl _)]
  simp

end Iv

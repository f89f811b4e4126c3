import Verif.Props.EvalOrder
import Verif.Lemmas.ParseLoop
/-
C47: statements are separated by diamonds outside of braces and evaluated from left to right.
-/
namespace Iv
variable {D H : Type}

/-! ### Specification -/

/-- number of opening braces minus number of closing ones -/
def braceLevel : List Token → Int
  | [] => 0
  | t :: ts => (if t.t = .leftBrace then 1 else if t.t = .rightBrace then -1 else 0) + braceLevel ts

/-- no closing brace without an opening one, and all diamonds are inside of braces -/
def OneStatement (s : List Token) : Prop :=
  (∀ p q, s = p ++ q → 0 ≤ braceLevel p) ∧ (∀ p d q, s = p ++ d :: q → d.t = .diamond → braceLevel p ≠ 0)

/-- The statements of a program: the program is the statements with a diamond between them; there may be a diamond at the end. -/
inductive Statements : List Token → List (List Token) → Prop
  | nil : Statements [] []
  | last (s) : s ≠ [] → OneStatement s → Statements s [s]
  | cons (s d ts r) : OneStatement s → braceLevel s = 0 → d.t = .diamond → Statements ts r → Statements (s ++ d :: ts) (s :: r)

/-- Statements are evaluated one after the other, each one in the state that the one before it has left; the first one that fails is the
last one that is evaluated. -/
inductive Runs (sys : Sys D H) : List (Expr D) → St D H → Except Fail (List (IVal D)) → St D H → Prop
  | nil (s) : Runs sys [] s (.ok []) s
  | fail (e es s x s') : Evals sys (.eval e) s (.error x) s' → Runs sys (e :: es) s (.error x) s'
  | ok (e es s v s1 vs s') : Evals sys (.eval e) s (.ok v) s1 → Runs sys es s1 (.ok vs) s' → Runs sys (e :: es) s (.ok (v :: vs)) s'
  | later (e es s v s1 x s') : Evals sys (.eval e) s (.ok v) s1 → Runs sys es s1 (.error x) s' → Runs sys (e :: es) s (.error x) s'

/-- the same with output: the value of a statement is written before the next one is evaluated, unless it is an assignment -/
inductive RunsWriting (sys : Sys D H) : List (Expr D) → St D H → Except Fail Unit → St D H → Prop
  | nil (s) : RunsWriting sys [] s (.ok ()) s
  | fail (e es s x s') : Evals sys (.eval e) s (.error x) s' → RunsWriting sys (e :: es) s (.error x) s'
  | assign (e es s v s1 x s') : isAssignment e = true → Evals sys (.eval e) s (.ok v) s1 → RunsWriting sys es s1 x s' →
      RunsWriting sys (e :: es) s x s'
  | write (e es s v s1 x s') : isAssignment e = false → Evals sys (.eval e) s (.ok v) s1 →
      RunsWriting sys es { s1 with out := s1.out ++ [v] } x s' → RunsWriting sys (e :: es) s x s'

/-! ### Splitting -/

theorem braceLevel_append (a b : List Token) : braceLevel (a ++ b) = braceLevel a + braceLevel b := by
  induction a with
  | nil => simp [braceLevel]
  | cons t a ih => simp only [List.cons_append, braceLevel, ih]; omega

theorem nil_pre {p q : List Token} (e : [] = p ++ q) : p = [] := by
  cases p with
  | nil => rfl
  | cons => simp at e

/-- the statement found by `nextLoop` -/
theorem nextLoop_ok (b : Nat) (stmt ts s rest : List Token) (h : nextLoop b stmt ts = .ok (s, rest)) :
    ∃ a, s = stmt ++ a ∧ (∀ p q, a = p ++ q → 0 ≤ (b : Int) + braceLevel p) ∧
      (∀ p d q, a = p ++ d :: q → d.t = .diamond → (b : Int) + braceLevel p ≠ 0) ∧
      ((ts = a ∧ rest = []) ∨ (∃ d, ts = a ++ d :: rest ∧ d.t = .diamond ∧ (b : Int) + braceLevel a = 0)) := by
  induction ts generalizing b stmt with
  | nil =>
    simp [nextLoop] at h
    refine ⟨[], by simp [h.1], ?_, ?_, .inl ⟨rfl, h.2⟩⟩
    · intro p q e
      have : p = [] := nil_pre e
      subst this; simp [braceLevel]
    · intro p d q e; cases p <;> simp at e
  | cons t ts ih =>
    have step : ∀ b' : Nat, nextLoop b' (stmt ++ [t]) ts = .ok (s, rest) → (t.t = .diamond → b ≠ 0) →
        ((b : Int) + (if t.t = .leftBrace then 1 else if t.t = .rightBrace then -1 else 0) = b') →
        ∃ a, s = stmt ++ a ∧ (∀ p q, a = p ++ q → 0 ≤ (b : Int) + braceLevel p) ∧
          (∀ p d q, a = p ++ d :: q → d.t = .diamond → (b : Int) + braceLevel p ≠ 0) ∧
          ((t :: ts = a ∧ rest = []) ∨ (∃ d, t :: ts = a ++ d :: rest ∧ d.t = .diamond ∧ (b : Int) + braceLevel a = 0)) := by
      intro b' h' hd hb
      obtain ⟨a, e1, e2, e3, e4⟩ := ih b' _ h'
      refine ⟨t :: a, by simp [e1], ?_, ?_, ?_⟩
      · intro p q e
        cases p with
        | nil => simp [braceLevel]
        | cons u p =>
          simp only [List.cons_append, List.cons.injEq] at e
          obtain ⟨rfl, e⟩ := e
          have := e2 p q e
          simp only [braceLevel]
          omega
      · intro p d q e hdd
        cases p with
        | nil =>
          simp only [List.nil_append, List.cons.injEq] at e
          obtain ⟨rfl, e⟩ := e
          have := hd hdd
          simp only [braceLevel]; omega
        | cons u p =>
          simp only [List.cons_append, List.cons.injEq] at e
          obtain ⟨rfl, e⟩ := e
          have := e3 p d q e hdd
          simp only [braceLevel]
          omega
      · rcases e4 with ⟨e4, e5⟩ | ⟨d, e4, e5, e6⟩
        · exact .inl ⟨by rw [e4], e5⟩
        · refine .inr ⟨d, by rw [e4]; rfl, e5, ?_⟩
          simp only [braceLevel]; omega
    rw [nextLoop] at h
    split at h
    · rename_i ht
      exact step (b + 1) h (fun hd => by simp [ht] at hd) (by simp [ht])
    · rename_i ht
      split at h
      · rename_i ht'
        split at h
        · simp at h
        · rename_i hb
          exact step (b - 1) h (fun hd => by simp [ht'] at hd) (by simp [ht']; omega)
      · rename_i ht'
        split at h
        · rename_i hd
          simp at h
          refine ⟨[], by simp [h.1], ?_, ?_, .inr ⟨t, by simp [h.2], hd.2, by simp [braceLevel, hd.1]⟩⟩
          · intro p q e
            have : p = [] := nil_pre e
            subst this; simp [braceLevel]
          · intro p d q e; cases p <;> simp at e
        · rename_i hd
          exact step b h (fun hdd hb => hd ⟨hb, hdd⟩) (by simp [ht, ht'])

theorem oneStatement_of {s : List Token} (h : nextLoop 0 [] s = .ok (s, [])) : OneStatement s := by
  obtain ⟨a, e1, e2, e3, _⟩ := nextLoop_ok _ _ _ _ _ h
  simp only [List.nil_append] at e1
  subst e1
  exact ⟨by simpa using e2, by simpa using e3⟩

theorem nextLoop_run (b : Nat) (stmt s rest : List Token) (h1 : ∀ p q, s = p ++ q → 0 ≤ (b : Int) + braceLevel p)
    (h2 : ∀ p d q, s = p ++ d :: q → d.t = .diamond → (b : Int) + braceLevel p ≠ 0) :
    ∃ b' : Nat, (b' : Int) = b + braceLevel s ∧ nextLoop b stmt (s ++ rest) = nextLoop b' (stmt ++ s) rest := by
  induction s generalizing b stmt with
  | nil => exact ⟨b, by simp [braceLevel], by simp⟩
  | cons t s ih =>
    have hp := h1 [t] s rfl
    have hd := h2 [] t s rfl
    simp only [braceLevel] at hp hd
    have step : ∀ b1 : Nat, ((b : Int) + (if t.t = .leftBrace then 1 else if t.t = .rightBrace then -1 else 0) = b1) →
        nextLoop b stmt (t :: s ++ rest) = nextLoop b1 (stmt ++ [t]) (s ++ rest) →
        ∃ b' : Nat, (b' : Int) = b + braceLevel (t :: s) ∧ nextLoop b stmt (t :: s ++ rest) = nextLoop b' (stmt ++ t :: s) rest := by
      intro b1 e1 e2
      obtain ⟨b', e3, e4⟩ := ih b1 (stmt ++ [t])
        (fun p q e => by have := h1 (t :: p) q (by rw [e]; rfl); simp only [braceLevel] at this; omega)
        (fun p d q e hdd => by have := h2 (t :: p) d q (by rw [e]; rfl) hdd; simp only [braceLevel] at this; omega)
      refine ⟨b', by simp only [braceLevel]; omega, ?_⟩
      rw [e2, e4]; simp
    by_cases ht : t.t = .leftBrace
    · refine step (b + 1) (by simp [ht]) ?_
      rw [List.cons_append, nextLoop, if_pos ht]
    · by_cases ht' : t.t = .rightBrace
      · simp only [ht'] at hp
        simp at hp
        refine step (b - 1) (by simp [ht']; omega) ?_
        rw [List.cons_append, nextLoop, if_neg ht, if_pos ht', if_neg (by omega)]
      · refine step b (by simp [ht, ht']) ?_
        rw [List.cons_append, nextLoop, if_neg ht, if_neg ht', if_neg (fun h => hd h.2 (by simp [h.1]))]

theorem nextLoop_error (b : Nat) (stmt ts : List Token) (x : Fail) (h : nextLoop b stmt ts = .error x) :
    ∃ p q, ts = p ++ q ∧ (b : Int) + braceLevel p < 0 := by
  induction ts generalizing b stmt with
  | nil => simp [nextLoop] at h
  | cons t ts ih =>
    rw [nextLoop] at h
    split at h
    · rename_i ht
      obtain ⟨p, q, e, hp⟩ := ih _ _ h
      exact ⟨t :: p, q, by simp [e], by simp only [braceLevel, ht]; simp at hp ⊢; omega⟩
    · rename_i ht
      split at h
      · rename_i ht'
        split at h
        · rename_i hb
          exact ⟨[t], ts, rfl, by simp [braceLevel, ht', hb]⟩
        · rename_i hb
          obtain ⟨p, q, e, hp⟩ := ih _ _ h
          refine ⟨t :: p, q, by simp [e], ?_⟩
          simp only [braceLevel, ht']
          have : ((b - 1 : Nat) : Int) = b - 1 := by omega
          rw [this] at hp
          simp; omega
      · rename_i ht'
        split at h
        · simp at h
        · obtain ⟨p, q, e, hp⟩ := ih _ _ h
          exact ⟨t :: p, q, by simp [e], by simp only [braceLevel, if_neg ht, if_neg ht']; omega⟩

/-- two ways to split the first statement off are the same -/
theorem first_unique (s s' u u' : List Token) (h : OneStatement s) (h' : OneStatement s')
    (e : s ++ u = s' ++ u') (hu : u = [] ∨ ∃ d r, u = d :: r ∧ d.t = .diamond ∧ braceLevel s = 0)
    (hu' : u' = [] ∨ ∃ d r, u' = d :: r ∧ d.t = .diamond ∧ braceLevel s' = 0) : s = s' ∧ u = u' := by
  rcases List.append_eq_append_iff.mp e with ⟨a, e1, e2⟩ | ⟨a, e1, e2⟩
  · cases a with
    | nil => simp at e1 e2; exact ⟨e1.symm, e2⟩
    | cons d a =>
      rcases hu with hu | ⟨d', r, hu, hd, hl⟩
      · rw [hu] at e2; simp at e2
      · rw [hu] at e2
        simp at e2
        obtain ⟨rfl, _⟩ := e2
        exact absurd hl (h'.2 s d' a e1 hd)
  · cases a with
    | nil => simp at e1 e2; exact ⟨e1, e2.symm⟩
    | cons d a =>
      rcases hu' with hu | ⟨d', r, hu, hd, hl⟩
      · rw [hu] at e2; simp at e2
      · rw [hu] at e2
        simp at e2
        obtain ⟨rfl, _⟩ := e2
        exact absurd hl (h.2 s' d' a e1 hd)

/-- A program has at most one sequence of statements. -/
theorem C47_unique (ts : List Token) (r r' : List (List Token)) (h : Statements ts r) (h' : Statements ts r') : r = r' := by
  induction h generalizing r' with
  | nil =>
    generalize hts : ([] : List Token) = ts at h'
    cases h' with
    | nil => rfl
    | last s hne _ => exact absurd hts.symm hne
    | cons s d ts r _ _ _ _ => simp at hts
  | last s hne ho =>
    generalize hts : s = ts at h'
    cases h' with
    | nil => exact absurd hts hne
    | last s' _ _ => rfl
    | cons s' d ts r ho' hl hd _ =>
      have := first_unique s s' [] (d :: ts) ho ho' (by simpa using hts) (.inl rfl) (.inr ⟨d, ts, rfl, hd, hl⟩)
      simp at this
  | cons s d us r ho hl hd hr ih =>
    generalize hts : s ++ d :: us = ts at h'
    cases h' with
    | nil => simp at hts
    | last s' _ ho' =>
      have := first_unique s ts (d :: us) [] ho ho' (by simpa using hts) (.inr ⟨d, us, rfl, hd, hl⟩) (.inl rfl)
      simp at this
    | cons s' d' us' r' ho' hl' hd' hr' =>
      have := first_unique s s' (d :: us) (d' :: us') ho ho' hts (.inr ⟨d, us, rfl, hd, hl⟩) (.inr ⟨d', us', rfl, hd', hl'⟩)
      simp at this
      obtain ⟨rfl, rfl, rfl⟩ := this
      rw [ih _ hr']

/-- the expression of a statement -/
def parseOne (ctx : PCtx D) (s : List Token) : Res (Option (Expr D)) := (parseStatement ctx s).map (Option.map Item.e)

theorem parseLoop_ok (ctx : PCtx D) (ts : List Token) (r : List (List Token)) (h : Statements ts r) (n : Nat) (hn : ts.length ≤ n) :
    parseLoop (parseStatement ctx) n ts = r.mapM (parseOne ctx) := by
  induction h generalizing n with
  | nil => cases n <;> rfl
  | last s hne ho =>
    cases s with
    | nil => exact absurd rfl hne
    | cons t s =>
      cases n with
      | zero => simp at hn
      | succ n =>
        obtain ⟨b, _, e⟩ := nextLoop_run 0 [] (t :: s) [] (by simpa using ho.1) (by simpa using ho.2)
        rw [List.append_nil, List.nil_append, show nextLoop b (t :: s) [] = .ok (t :: s, []) by rw [nextLoop]] at e
        rw [parseLoop.eq_def]
        simp only [e, bind, Except.bind, parseOne, List.mapM_cons, List.mapM_nil, Except.map]
        cases parseStatement ctx (t :: s) <;> simp [parseLoop, pure, Except.pure]
  | cons s d us r ho hl hd hr ih =>
    cases n with
    | zero => simp at hn
    | succ n =>
      have e : nextLoop 0 [] (s ++ d :: us) = .ok (s, us) := by
        obtain ⟨b, e0, e⟩ := nextLoop_run 0 [] s (d :: us) (by simpa using ho.1) (by simpa using ho.2)
        have : b = 0 := by simp [hl] at e0; exact e0
        subst this
        rw [e, nextLoop, if_neg (by simp [hd]), if_neg (by simp [hd]), if_pos ⟨rfl, hd⟩, List.nil_append]
      cases hts : s ++ d :: us with
      | nil => simp at hts
      | cons t ts =>
        rw [hts] at e
        rw [parseLoop.eq_def]
        simp only [e, bind, Except.bind, parseOne, List.mapM_cons, Except.map]
        rw [ih n (by simp at hn; omega)]
        cases parseStatement ctx s with
        | error x => rfl
        | ok i =>
          simp only [pure, Except.pure]
          done

/-- The statements of a program are parsed one by one.  An empty program is an error. -/
theorem C47_statements (ctx : PCtx D) (ts : List Token) (r : List (List Token)) (h : Statements ts r) (hne : r ≠ []) :
    parseProgram ctx ts = r.mapM (parseOne ctx) := by
  unfold parseProgram
  rw [parseLoop_ok ctx ts r h _ (Nat.le_refl _)]
  cases r with
  | nil => exact absurd rfl hne
  | cons s r =>
    rw [List.mapM_cons]
    simp only [bind, Except.bind]
    cases parseOne ctx s with
    | error x => rfl
    | ok e => cases List.mapM (parseOne ctx) r <;> rfl

theorem statements_exist (n : Nat) (ts : List Token) (hn : ts.length ≤ n) (hlv : ∀ p q, ts = p ++ q → 0 ≤ braceLevel p) :
    ∃ r, Statements ts r := by
  induction n generalizing ts with
  | zero =>
    have : ts = [] := by cases ts <;> simp_all
    subst this; exact ⟨[], .nil⟩
  | succ n ih =>
    by_cases hts : ts = []
    · subst hts; exact ⟨[], .nil⟩
    · cases hx : nextLoop 0 [] ts with
      | error x =>
        obtain ⟨p, q, e, hp⟩ := nextLoop_error _ _ _ _ hx
        have := hlv p q e
        simp at hp; omega
      | ok x =>
        obtain ⟨s, rest⟩ := x
        obtain ⟨a, e1, e2, e3, e4⟩ := nextLoop_ok _ _ _ _ _ hx
        simp only [List.nil_append] at e1
        subst e1
        simp only [Int.natCast_zero, Int.zero_add] at e2 e3 e4
        rcases e4 with ⟨e4, e5⟩ | ⟨d, e4, e5, e6⟩
        · subst e4; exact ⟨[ts], .last _ hts ⟨e2, e3⟩⟩
        · obtain ⟨r, hr⟩ := ih rest (by rw [e4] at hn; simp at hn; omega) (fun p q e => by
            have := hlv (s ++ d :: p) q (by rw [e4, e]; simp)
            rw [braceLevel_append, e6] at this
            simp only [braceLevel, e5] at this
            simpa using this)
          exact ⟨s :: r, e4 ▸ .cons s d rest r ⟨e2, e3⟩ e6 e5 hr⟩

theorem parseLoop_bad (ctx : PCtx D) (n : Nat) (ts p q : List Token) (hn : ts.length ≤ n) (e : ts = p ++ q) (hp : braceLevel p < 0) :
    ∃ x, parseLoop (parseStatement ctx) n ts = .error x := by
  induction n generalizing ts p q with
  | zero =>
    have : ts = [] := List.length_eq_zero_iff.mp (by omega)
    subst this
    have := nil_pre e
    subst this; simp [braceLevel] at hp
  | succ n ih =>
    cases ts with
    | nil =>
      have : p = [] := nil_pre e
      subst this; simp [braceLevel] at hp
    | cons t ts =>
      rw [parseLoop.eq_def]
      simp only [bind, Except.bind]
      cases hx : nextLoop 0 [] (t :: ts) with
      | error x => exact ⟨x, rfl⟩
      | ok x =>
        obtain ⟨s, rest⟩ := x
        simp only
        obtain ⟨a, e1, e2, e3, e4⟩ := nextLoop_ok _ _ _ _ _ hx
        simp only [List.nil_append] at e1
        subst e1
        simp only [Int.natCast_zero, Int.zero_add] at e2 e3 e4
        cases parseStatement ctx s with
        | error x => exact ⟨x, rfl⟩
        | ok i =>
          simp only
          rcases e4 with ⟨e4, e5⟩ | ⟨d, e4, e5, e6⟩
          · have := e2 p q (by rw [← e4, e]); omega
          · have e' : s ++ d :: rest = p ++ q := by rw [← e4, e]
            have : ∃ p' q', rest = p' ++ q' ∧ braceLevel p' < 0 := by
              rcases List.append_eq_append_iff.mp e' with ⟨a, f1, f2⟩ | ⟨a, f1, f2⟩
              · cases a with
                | nil => simp at f1; subst f1; omega
                | cons u a =>
                  simp at f2
                  obtain ⟨rfl, f2⟩ := f2
                  refine ⟨a, q, f2, ?_⟩
                  rw [f1, braceLevel_append, e6] at hp
                  simp only [braceLevel, e5] at hp
                  simpa using hp
              · have := e2 p a f1; omega
            obtain ⟨p', q', f1, f2⟩ := this
            obtain ⟨x, hx⟩ := ih rest p' q' (by rw [e4] at hn; simp at hn; omega) f1 f2
            exact ⟨x, by rw [hx]⟩

/-- A closing brace without an opening one is an error, all other programs are a sequence of statements. -/
theorem C47_total (ctx : PCtx D) (ts : List Token) :
    (∃ r, Statements ts r) ∨ ((∃ p q, ts = p ++ q ∧ braceLevel p < 0) ∧ ∃ x, parseProgram ctx ts = .error x) := by
  by_cases h : ∀ p q, ts = p ++ q → 0 ≤ braceLevel p
  · exact .inl (statements_exist _ ts (Nat.le_refl _) h)
  · right
    have : ∃ p q, ts = p ++ q ∧ braceLevel p < 0 := by
      apply Classical.byContradiction
      intro hh
      refine h (fun p q e => ?_)
      apply Classical.byContradiction
      intro h'
      exact hh ⟨p, q, e, by omega⟩
    refine ⟨this, ?_⟩
    obtain ⟨p, q, e, hp⟩ := this
    obtain ⟨x, hx⟩ := parseLoop_bad ctx _ ts p q (Nat.le_refl _) e hp
    exact ⟨x, by unfold parseProgram; rw [hx]; rfl⟩

/-- all tokens but the separators are in the statements, in the same order -/
theorem C47_tokens (ts : List Token) (r : List (List Token)) (h : Statements ts r) :
    r.flatten.Sublist ts ∧ ts.length ≤ r.flatten.length + r.length ∧ r.flatten.length + r.length ≤ ts.length + 1 ∧
      braceLevel r.flatten = braceLevel ts := by
  induction h with
  | nil => simp [braceLevel]
  | last s hne ho => simp
  | cons s d us r ho hl hd hr ih =>
    obtain ⟨h1, h2, h3, h4⟩ := ih
    simp only [List.flatten_cons, List.length_append, List.length_cons, braceLevel_append, braceLevel, h4]
    refine ⟨List.Sublist.append (List.Sublist.refl _) (h1.cons _), by omega, by omega, by simp [hd]⟩

/-! ### Evaluation -/

theorem mono_evalStmt (sys : Sys D H) (e : Option (Expr D)) : Mono (fun n => evalStmt sys n e) := by
  cases e with
  | none => exact Mono.const _
  | some e => exact Mono.run sys _

theorem mono_evalProgram (sys : Sys D H) (es : List (Option (Expr D))) : Mono (fun n => evalProgram sys n es) := by
  induction es with
  | nil => exact Mono.const _
  | cons e es ih =>
    refine Mono.bind (mono_evalStmt sys e) (fun v => ?_)
    exact Mono.bind ih (fun vs => Mono.const _)

/-- Statements are evaluated from left to right; the first one that fails stops the program. -/
theorem C47_eval (sys : Sys D H) (es : List (Expr D)) (s : St D H) (x : Except Fail (List (IVal D))) (s' : St D H) :
    (∃ n, evalProgram sys n (es.map some) s = some (x, s')) ↔ Runs sys es s x s' := by
  show Yields (fun n => evalProgram sys n (es.map some)) s x s' ↔ _
  induction es generalizing s x with
  | nil =>
    constructor
    · intro h
      obtain ⟨h1, h2⟩ := (yields_pure _ _ _ _).mp h
      subst h1 h2
      exact .nil _
    · intro h
      cases h
      exact (yields_pure _ _ _ _).mpr ⟨rfl, rfl⟩
  | cons e es ih =>
    have hb := yields_bind (m := fun n => evalStmt sys n (some e)) (f := fun n v => evalProgram sys n (es.map some) >>= fun vs => pure (v :: vs))
      (mono_evalStmt sys _) (fun v => Mono.bind (mono_evalProgram sys _) (fun vs => Mono.const _)) s x s'
    refine Iff.trans hb ?_
    have hb2 : ∀ v s1, Yields (fun n => evalProgram sys n (es.map some) >>= fun vs => pure (v :: vs)) s1 x s' ↔
        (∃ vs, x = .ok (v :: vs) ∧ Runs sys es s1 (.ok vs) s') ∨ (∃ f, x = .error f ∧ Runs sys es s1 (.error f) s') := by
      intro v s1
      refine (yields_bind (m := fun n => evalProgram sys n (es.map some)) (f := fun _ vs => pure (v :: vs)) (mono_evalProgram sys _)
        (fun vs => Mono.const _) s1 x s').trans ?_
      constructor
      · rintro (⟨vs, s2, h1, h2⟩ | ⟨f, h1, h2⟩)
        · obtain ⟨h3, h4⟩ := (yields_pure _ _ _ _).mp h2
          subst h3 h4
          exact .inl ⟨vs, rfl, (ih _ _).mp h1⟩
        · exact .inr ⟨f, h1, (ih _ _).mp h2⟩
      · rintro (⟨vs, h1, h2⟩ | ⟨f, h1, h2⟩)
        · exact .inl ⟨vs, s', (ih _ _).mpr h2, (yields_pure _ _ _ _).mpr ⟨h1, rfl⟩⟩
        · exact .inr ⟨f, h1, (ih _ _).mpr h2⟩
    constructor
    · rintro (⟨v, s1, h1, h2⟩ | ⟨f, h1, h2⟩)
      · rcases (hb2 v s1).mp h2 with ⟨vs, h3, h4⟩ | ⟨f, h3, h4⟩
        · subst h3; exact .ok _ _ _ _ _ _ _ h1 h4
        · subst h3; exact .later _ _ _ _ _ _ _ h1 h4
      · subst h1; exact .fail _ _ _ _ _ h2
    · intro h
      cases h with
      | fail _ _ _ f _ h1 => exact .inr ⟨f, rfl, h1⟩
      | ok _ _ _ v s1 vs _ h1 h2 => exact .inl ⟨v, s1, h1, (hb2 v s1).mpr (.inl ⟨vs, rfl, h2⟩)⟩
      | later _ _ _ v s1 f _ h1 h2 => exact .inl ⟨v, s1, h1, (hb2 v s1).mpr (.inr ⟨f, rfl, h2⟩)⟩

theorem mono_evalWrite (sys : Sys D H) (es : List (Option (Expr D))) : Mono (fun n => evalWrite sys n es) := by
  induction es with
  | nil => exact Mono.const _
  | cons e es ih =>
    refine Mono.bind (mono_evalStmt sys e) (fun v => ?_)
    exact Mono.bind (m := fun _ => writeStmt e v) (Mono.const _) (fun _ => ih)

/-- The values of the statements are written in order, assignments write nothing. -/
theorem C47_output (sys : Sys D H) (es : List (Expr D)) (s : St D H) (x : Except Fail Unit) (s' : St D H) :
    (∃ n, evalWrite sys n (es.map some) s = some (x, s')) ↔ RunsWriting sys es s x s' := by
  show Yields (fun n => evalWrite sys n (es.map some)) s x s' ↔ _
  induction es generalizing s with
  | nil =>
    constructor
    · intro h
      obtain ⟨h1, h2⟩ := (yields_pure _ _ _ _).mp h
      subst h1 h2
      exact .nil _
    · intro h
      cases h
      exact (yields_pure _ _ _ _).mpr ⟨rfl, rfl⟩
  | cons e es ih =>
    have hb := yields_bind (m := fun n => evalStmt sys n (some e))
      (f := fun n v => writeStmt (some e) v >>= fun _ => evalWrite sys n (es.map some))
      (mono_evalStmt sys _) (fun v => Mono.bind (m := fun _ => writeStmt (some e) v) (Mono.const _)
        (fun _ => mono_evalWrite sys _)) s x s'
    refine Iff.trans hb ?_
    have hb2 : ∀ v s1, Yields (fun n => writeStmt (some e) v >>= fun _ => evalWrite sys n (es.map some)) s1 x s' ↔
        RunsWriting sys es (if isAssignment e then s1 else { s1 with out := s1.out ++ [v] }) x s' := by
      intro v s1
      rw [← ih]
      cases ha : isAssignment e with
      | true =>
        rw [if_pos rfl, show (writeStmt (some e) v : EM D H Unit) = pure () from if_pos ha]
        exact Iff.rfl
      | false =>
        rw [if_neg (by simp), show (writeStmt (some e) v : EM D H Unit) = modSt (fun s => { s with out := s.out ++ [v] }) from
          if_neg (by simp [isAssignment?, ha])]
        exact Iff.rfl
    constructor
    · rintro (⟨v, s1, h1, h2⟩ | ⟨f, h1, h2⟩)
      · have := (hb2 v s1).mp h2
        cases ha : isAssignment e with
        | true => rw [ha] at this; exact .assign _ _ _ _ _ _ _ ha h1 this
        | false => rw [ha] at this; exact .write _ _ _ _ _ _ _ ha h1 this
      · subst h1; exact .fail _ _ _ _ _ h2
    · intro h
      cases h with
      | fail _ _ _ f _ h1 => exact .inr ⟨f, rfl, h1⟩
      | assign _ _ _ v s1 _ _ ha h1 h2 => exact .inl ⟨v, s1, h1, (hb2 v s1).mpr (by rw [ha]; exact h2)⟩
      | write _ _ _ v s1 _ _ ha h1 h2 => exact .inl ⟨v, s1, h1, (hb2 v s1).mpr (by rw [ha]; exact h2)⟩

/-- an empty statement, `⋄1`, fails when it is evaluated -/
theorem C47_empty_statement (sys : Sys D H) (n : Nat) (es : List (Option (Expr D))) (s : St D H) :
    evalProgram sys n (none :: es) s = some (.error .panic, s) := rfl

end Iv

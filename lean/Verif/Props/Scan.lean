import Verif.Lemmas.Scan
import Verif.Props.Program
/-
C48: string literals.  C49: the tokens of a line.  C50: statements over several lines.
-/
namespace Iv

/-! ### C48 -/

/-- A literal gives one token that holds its string; the scanner goes on directly after it. -/
theorem C48_literal (ctx : ScanCtx) (text : List Char) (t : Token) (rest : List Char) (h : Literal ctx text t rest) :
    nextToken ctx (text ++ rest) = .ok (some (t, rest)) := nextToken_literal ctx text t rest h

/-- Whatever starts with a quote is a literal, or the scanner fails. -/
theorem C48_only_literals (ctx : ScanCtx) (q : Char) (cs : List Char) (hq : q ∈ ['"', '\'', '`']) (r : Option (Token × List Char))
    (h : nextToken ctx (q :: cs) = .ok r) : ∃ text t rest, r = some (t, rest) ∧ q :: cs = text ++ rest ∧ Literal ctx text t rest := by
  have hq' : q = '"' ∨ q = '\'' ∨ q = '`' := by simpa using hq
  rw [nextToken, if_pos hq'] at h
  cases hs : scanString ctx q cs with
  | error e => rw [hs] at h; simp [bind, Except.bind] at h
  | ok p =>
    rw [hs] at h
    simp [bind, Except.bind] at h
    subst h
    obtain ⟨text, e, hl⟩ := scanString_ok ctx q hq' cs p.1 p.2 hs
    exact ⟨text, p.1, p.2, rfl, e, hl⟩

/-- A line that starts with a quote but not with a literal is rejected. -/
theorem C48_reject (ctx : ScanCtx) (q : Char) (cs : List Char) (hq : q ∈ ['"', '\'', '`'])
    (h : ∀ text t rest, q :: cs = text ++ rest → ¬ Literal ctx text t rest) : scanLine ctx (q :: cs) = .error .err := by
  have hq' : q = '"' ∨ q = '\'' ∨ q = '`' := by simpa using hq
  have hs : scanString ctx q cs = .error .err := by
    cases hs : scanString ctx q cs with
    | ok p =>
      obtain ⟨text, e, hl⟩ := scanString_ok ctx q hq' cs p.1 p.2 hs
      exact absurd hl (h _ _ _ e)
    | error e =>
      simp only [scanString] at hs
      repeat' split at hs
      all_goals simp at hs
      all_goals rw [hs]
  simp only [scanLine, lexLoop, nextToken, if_pos hq', hs]
  rfl

/-- A literal that is the whole line. -/
theorem C48_line (ctx : ScanCtx) (text : List Char) (t : Token) (h : Literal ctx text t []) : scanLine ctx text = .ok [t] := by
  have hl : Lexes ctx (text ++ []) [t] := .token text t [] [] (.literal _ _ _ h) .done
  rw [List.append_nil] at hl
  rw [scanLine, lexLoop_eq ctx text _ hl _ (Nat.lt_succ_self _)]
  rfl

/-- the text that stands for a string within double quotes: quotes, backslashes and line breaks are escaped -/
def quoteText : List Char → List Char
  | [] => []
  | c :: w => (if c = '"' then ['\\', '"'] else if c = '\\' then ['\\', '\\'] else if c = '\n' then ['\\', 'n'] else [c]) ++ quoteText w

/-- Every string can be written with single quotes and with double quotes, and is read back. -/
theorem C48_every_string (ctx : ScanCtx) (w : List Char) :
    scanLine ctx ('\'' :: doubled w ++ ['\'']) = .ok [⟨.chars, String.ofList w⟩] ∧
    scanLine ctx ('"' :: quoteText w ++ ['"']) = .ok [⟨.string, String.ofList w⟩] := by
  refine ⟨C48_line ctx _ _ (.chars w [] (by simp)), C48_line ctx _ _ (.quoted _ w [] ?_)⟩
  induction w with
  | nil => exact .nil
  | cons c w ih =>
    simp only [quoteText]
    split
    · rename_i e; subst e
      exact .escape ['"'] '"' _ _ (.letter _ _ (by decide)) ih
    · split
      · rename_i e; subst e
        exact .escape ['\\'] '\\' _ _ (.letter _ _ (by decide)) ih
      · split
        · rename_i e; subst e
          exact .escape ['n'] '\n' _ _ (.letter _ _ (by decide)) ih
        · rename_i h1 h2 h3
          exact .plain c _ _ h1 h2 h3 ih

theorem readSingle_doubled (w : List Char) : readSingle (doubled w) = none := by
  induction w with
  | nil => rfl
  | cons c w ih =>
    by_cases hc : c = '\''
    · subst hc
      have : doubled ('\'' :: w) = '\'' :: '\'' :: doubled w := by simp [doubled]
      rw [this]
      simp [readSingle, ih, consText]
    · have e : doubled (c :: w) = c :: doubled w := by simp [doubled, hc]
      rw [e]
      cases hd : doubled w with
      | nil => simp [readSingle, hc]
      | cons d ds => rw [hd] at ih; simp [readSingle, hc, ih, consText]

theorem readDouble_open (src w : List Char) (h : Spells src w) : readDouble false src = none := by
  cases hr : readDouble false src with
  | none => rfl
  | some p =>
    exfalso
    -- the text would end at a quote within the spelling
    have key : ∀ src w, Spells src w → ∀ s2, readDouble false (src ++ s2) = (readDouble false s2).map (fun p => (src ++ p.1, p.2)) := by
      intro src w h
      induction h with
      | nil => intro s2; simp
      | plain c s w h1 h2 _ _ ih =>
        intro s2
        have := ih s2
        simp [readDouble, h1, h2, this, consText]
        cases readDouble false s2 <;> simp
      | escape t x s w ht _ ih =>
        intro s2
        obtain ⟨e, es, rfl, he⟩ := escape_plain t x ht
        have hes : ∀ (es : List Char), (∀ c ∈ es, c ≠ '"' ∧ c ≠ '\\') → ∀ s3, readDouble false (es ++ s3) =
            (readDouble false s3).map (fun p => (es ++ p.1, p.2)) := by
          intro es he s3
          induction es with
          | nil => simp
          | cons c es ih2 =>
            have hc := he c (by simp)
            have := ih2 (fun d hd => he d (by simp [hd]))
            simp [readDouble, hc.1, hc.2, this, consText]
            cases readDouble false s3 <;> simp
        have := hes es he (s ++ s2)
        rw [ih s2] at this
        simp only [List.cons_append, List.append_assoc, readDouble]
        by_cases h2 : e = '\\'
        · subst h2
          simp [this, consText]
          cases readDouble false s2 <;> simp
        · simp [h2, this, consText]
          cases readDouble false s2 <;> simp
    have := key src w h []
    simp [readDouble] at this
    rw [this] at hr
    cases hr

/-- A literal without its closing quote is rejected. -/
theorem C48_unterminated (ctx : ScanCtx) (w src : List Char) :
    scanLine ctx ('\'' :: doubled w) = .error .err ∧ (Spells src w → scanLine ctx ('"' :: src) = .error .err) := by
  refine ⟨?_, fun h => ?_⟩
  · have : scanString ctx '\'' (doubled w) = .error .err := by simp [scanString, readSingle_doubled]
    simp only [scanLine, lexLoop, nextToken, if_pos (by decide : '\'' = '"' ∨ '\'' = '\'' ∨ '\'' = '`'), this]
    rfl
  · have : scanString ctx '"' src = .error .err := by simp [scanString, readDouble_open src w h]
    simp only [scanLine, lexLoop, nextToken, if_pos (by decide : '"' = '"' ∨ '"' = '\'' ∨ '"' = '`'), this]
    rfl

/-! ### C49 -/

/-- Tokens with rewrite commands: a line that starts with `/name` (or `\name`) for a registered command is what the command makes of the
rest, in which commands are rewritten first. -/
inductive Rewritten (ctx : ScanCtx) : List Token → List Token → Prop
  | command (t0 t1 ts us f) : t0.t = .symbol → t0.s ∈ ["/", "\\"] → t1.t = .identifier → ctx.cmd t1.s = some f → Rewritten ctx ts us →
      Rewritten ctx (t0 :: t1 :: ts) (f us)
  | plain (ts) : (∀ t0 t1 rest, ts = t0 :: t1 :: rest → t0.t = .symbol → t0.s ∈ ["/", "\\"] → t1.t = .identifier → ctx.cmd t1.s = none) →
      Rewritten ctx ts ts

theorem applyCmds_rewritten (ctx : ScanCtx) (ts : List Token) : Rewritten ctx ts (applyCmds ctx ts) := by
  fun_induction applyCmds ctx ts with
  | case1 t0 t1 ts h f hf ih => exact .command t0 t1 ts _ f h.1 (by simpa using h.2.1) h.2.2 hf ih
  | case2 t0 t1 ts h hf =>
    refine .plain _ (fun a b r e _ _ _ => ?_)
    simp only [List.cons.injEq] at e
    rw [← e.2.1]; exact hf
  | case3 t0 t1 ts h =>
    refine .plain _ (fun a b r e h1 h2 h3 => ?_)
    simp only [List.cons.injEq] at e
    obtain ⟨rfl, rfl, rfl⟩ := e
    exact absurd ⟨h1, by simpa using h2, h3⟩ h
  | case4 ts h =>
    refine .plain _ (fun a b r e => ?_)
    exact absurd e (h a b r)

theorem rewritten_unique (ctx : ScanCtx) (ts us : List Token) (h : Rewritten ctx ts us) : us = applyCmds ctx ts := by
  induction h with
  | command t0 t1 ts us f h1 h2 h3 h4 _ ih =>
    have h2' : t0.s = "/" ∨ t0.s = "\\" := by simpa using h2
    rw [applyCmds, if_pos ⟨h1, h2', h3⟩]
    simp [h4, ih]
  | plain ts h =>
    match ts with
    | [] => rfl
    | [_] => rfl
    | t0 :: t1 :: ts =>
      rw [applyCmds]
      split
      · rename_i hc
        have := h t0 t1 ts rfl hc.1 (by simpa using hc.2.1) hc.2.2
        simp [this]
      · rfl

/-- The tokens of a line are exactly the ones of the specification, after commands have been rewritten. -/
theorem C49_scan (ctx : ScanCtx) (line : List Char) (ts : List Token) :
    scanLine ctx line = .ok ts ↔ ∃ us, Lexes ctx line us ∧ Rewritten ctx us ts := by
  constructor
  · intro h
    simp only [scanLine] at h
    cases hs : lexLoop ctx (line.length + 1) line with
    | error e => rw [hs] at h; simp [bind, Except.bind] at h
    | ok us =>
      rw [hs] at h
      simp [bind, Except.bind] at h
      subst h
      exact ⟨us, (lexLoop_iff ctx line us).1 hs, applyCmds_rewritten ctx us⟩
  · rintro ⟨us, h1, h2⟩
    rw [scanLine, (lexLoop_iff ctx line us).2 h1, rewritten_unique ctx us ts h2]
    rfl

/-- A line has at most one sequence of tokens. -/
theorem C49_unique (ctx : ScanCtx) (line : List Char) (ts us : List Token) (h1 : Lexes ctx line ts) (h2 : Lexes ctx line us) : ts = us := by
  have e1 := (lexLoop_iff ctx line ts).2 h1
  have e2 := (lexLoop_iff ctx line us).2 h2
  rw [e1] at e2
  cases e2
  rfl

theorem lexLoop_err (ctx : ScanCtx) (n : Nat) (cs : List Char) (e : Fail) (h : lexLoop ctx n cs = .error e) : e = .err := by
  have hn : ∀ cs e, nextToken ctx cs = .error e → e = .err := by
    intro cs e h
    induction cs with
    | nil => simp [nextToken] at h
    | cons c cs ih =>
      simp only [nextToken] at h
      split at h
      · cases hs : scanString ctx c cs with
        | ok p => rw [hs] at h; simp [bind, Except.bind] at h
        | error e' =>
          rw [hs] at h
          simp [bind, Except.bind] at h
          subst h
          simp only [scanString] at hs
          repeat' split at hs
          all_goals simp at hs
          all_goals exact hs.symm
      · repeat' split at h
        all_goals first | exact ih h | (simp at h; try exact h.symm)
  induction n generalizing cs with
  | zero => simp [lexLoop] at h; exact h.symm
  | succ n ih =>
    simp only [lexLoop] at h
    cases hs : nextToken ctx cs with
    | error e' =>
      rw [hs] at h
      simp [bind, Except.bind] at h
      subst h
      exact hn _ _ hs
    | ok p =>
      rw [hs] at h
      simp only [bind, Except.bind] at h
      cases p with
      | none => simp at h
      | some p =>
        cases hr : lexLoop ctx n p.2 with
        | error e' =>
          simp only [hr] at h
          simp at h
          subst h
          exact ih _ hr
        | ok ts => simp [hr] at h

/-- The scanner always ends, with the tokens of the line or an error; it fails exactly if the line is not made of lexemes. -/
theorem C49_reject (ctx : ScanCtx) (line : List Char) : scanLine ctx line = .error .err ↔ ¬ ∃ us, Lexes ctx line us := by
  constructor
  · rintro h ⟨us, hu⟩
    have := (C49_scan ctx line (applyCmds ctx us)).2 ⟨us, hu, applyCmds_rewritten ctx us⟩
    rw [h] at this
    cases this
  · intro h
    simp only [scanLine]
    cases hs : lexLoop ctx (line.length + 1) line with
    | ok us => exact absurd ⟨us, (lexLoop_iff ctx line us).1 hs⟩ h
    | error e => rw [lexLoop_err ctx _ _ e hs]; rfl

/-- only blanks -/
def Blank (s : List Char) : Prop := ∀ c ∈ s, c ∈ [' ', '\r', '\t']

/-- the end of a line: blanks, and maybe a comment -/
def BlankEnd (s : List Char) : Prop := Blank s ∨ ∃ b c, s = b ++ '⍝' :: c ∧ Blank b

/-- The texts of the tokens cover the line in order: the line is each text after blanks, and an end of blanks and a comment. -/
theorem C49_cover (ctx : ScanCtx) (line : List Char) (ts : List Token) (h : Lexes ctx line ts) :
    ∃ (parts : List (List Char × List Char × Token)) (tail : List Char), line = (parts.flatMap (fun p => p.1 ++ p.2.1)) ++ tail ∧ BlankEnd tail ∧
      ts = parts.map (fun p => p.2.2) ∧ ∀ p ∈ parts, Blank p.1 ∧ p.2.1 ≠ [] ∧ ∃ rest, Lexeme ctx p.2.1 p.2.2 rest := by
  induction h with
  | done => exact ⟨[], [], rfl, .inl (by simp [Blank]), rfl, by simp⟩
  | comment cs => exact ⟨[], '⍝' :: cs, rfl, .inr ⟨[], cs, rfl, by simp [Blank]⟩, rfl, by simp⟩
  | blank c cs ts hb _ _ _ ih =>
    obtain ⟨parts, tail, rfl, h2, rfl, h4⟩ := ih
    cases parts with
    | nil =>
      refine ⟨[], c :: tail, rfl, ?_, rfl, by simp⟩
      rcases h2 with h2 | ⟨b, d, rfl, hd⟩
      · exact .inl (by intro x hx; rcases List.mem_cons.1 hx with rfl | hx; exact hb; exact h2 x hx)
      · exact .inr ⟨c :: b, d, rfl, by intro x hx; rcases List.mem_cons.1 hx with rfl | hx; exact hb; exact hd x hx⟩
    | cons p parts =>
      refine ⟨(c :: p.1, p.2.1, p.2.2) :: parts, tail, by simp, h2, by simp, ?_⟩
      intro x hx
      rcases List.mem_cons.1 hx with rfl | hx
      · have := h4 p (by simp)
        refine ⟨?_, this.2⟩
        intro x hx
        rcases List.mem_cons.1 hx with rfl | hx
        · exact hb
        · exact this.1 x hx
      · exact h4 x (by simp [hx])
  | token text t rest ts hl _ ih =>
    obtain ⟨parts, tail, rfl, h2, rfl, h4⟩ := ih
    refine ⟨([], text, t) :: parts, tail, by simp, h2, by simp, ?_⟩
    intro x hx
    rcases List.mem_cons.1 hx with rfl | hx
    · refine ⟨by simp [Blank], ?_, _, hl⟩
      have := (nextToken_ok ctx _ _ _ (nextToken_lexeme ctx text t _ hl)).1
      intro e
      simp only at e
      subst e
      simp at this
    · exact h4 x hx

/-! ### C50 -/

/-- The lines of a block as one sequence of tokens: lines without tokens are left out, a diamond is put between lines, but not after an
opening brace. -/
inductive Joined : List (List Token) → List Token → Prop
  | nil : Joined [] []
  | skip (ls acc) : Joined ls acc → Joined (ls ++ [[]]) acc
  | first (ls l) : Joined ls [] → l ≠ [] → Joined (ls ++ [l]) l
  | brace (ls acc b l) : Joined ls (acc ++ [b]) → b.t = .leftBrace → l ≠ [] → Joined (ls ++ [l]) (acc ++ [b] ++ l)
  | diamond (ls acc b l) : Joined ls (acc ++ [b]) → b.t ≠ .leftBrace → l ≠ [] → Joined (ls ++ [l]) (acc ++ [b] ++ ⟨.diamond, "⋄"⟩ :: l)

/-- Histories of a line buffer: the lines (as tokens) added since it was empty, and its state. -/
inductive History {D : Type} (ctx : ScanCtx) (pctx : PCtx D) : List (List Token) → LineBuffer → Prop
  | new : History ctx pctx [] .reset
  | added (ls b line ts r b') : History ctx pctx ls b → scanLine ctx line = .ok ts → b.add ctx line = (.ok r, b') →
      History ctx pctx (ls ++ [ts]) b'
  | failed (ls b line e b') : History ctx pctx ls b → b.add ctx line = (.error e, b') → History ctx pctx [] b'
  | parsed (ls b) : History ctx pctx ls b → History ctx pctx [] (b.parse pctx).2

/-- no closing brace comes before its opening brace -/
def NoExtraBrace (ts : List Token) : Prop := ∀ p q, ts = p ++ q → 0 ≤ braceLevel p

theorem countBraces_some (l l' : Int) (ts : List Token) (hl : 0 ≤ l) (h : countBraces l ts = some l') :
    l' = l + braceLevel ts ∧ ∀ p q, ts = p ++ q → 0 ≤ l + braceLevel p := by
  induction ts generalizing l with
  | nil =>
    simp [countBraces] at h
    subst h
    refine ⟨by simp [braceLevel], fun p q e => ?_⟩
    rw [nil_pre e]; simpa [braceLevel] using hl
  | cons t ts ih =>
    have main : ∀ d : Int, 0 ≤ l + d → (l' = l + d + braceLevel ts ∧ ∀ p q, ts = p ++ q → 0 ≤ l + d + braceLevel p) →
        d = (if t.t = .leftBrace then 1 else if t.t = .rightBrace then -1 else 0) →
        l' = l + braceLevel (t :: ts) ∧ ∀ p q, t :: ts = p ++ q → 0 ≤ l + braceLevel p := by
      intro d hd ⟨h1, h2⟩ he
      subst he
      refine ⟨by simp only [braceLevel]; omega, fun p q e => ?_⟩
      cases p with
      | nil => simpa [braceLevel] using hl
      | cons t' p =>
        simp only [List.cons_append, List.cons.injEq] at e
        obtain ⟨rfl, e⟩ := e
        have := h2 p q e
        simp only [braceLevel]; omega
    simp only [countBraces] at h
    split at h
    · rename_i ht
      exact main 1 (by omega) (ih _ (by omega) h) (by simp [ht])
    · rename_i ht
      split at h
      · rename_i ht2
        split at h
        · simp at h
        · have hge : 0 ≤ l + -1 := by omega
          have e : l - 1 = l + -1 := by omega
          rw [e] at h
          exact main (-1) hge (ih _ hge h) (by simp [ht2])
      · rename_i ht2
        have := ih _ hl h
        exact main 0 (by omega) (by simpa using this) (by simp [ht, ht2])

theorem countBraces_none (l : Int) (ts : List Token) (hl : 0 ≤ l) (h : countBraces l ts = none) :
    ∃ p q, ts = p ++ q ∧ l + braceLevel p < 0 := by
  induction ts generalizing l with
  | nil => simp [countBraces] at h
  | cons t ts ih =>
    simp only [countBraces] at h
    split at h
    · rename_i ht
      obtain ⟨p, q, rfl, hp⟩ := ih _ (by omega) h
      exact ⟨t :: p, q, rfl, by simp [braceLevel, ht]; omega⟩
    · rename_i ht
      split at h
      · rename_i ht2
        split at h
        · exact ⟨[t], ts, rfl, by simp [braceLevel, ht2]; omega⟩
        · obtain ⟨p, q, rfl, hp⟩ := ih _ (by omega) h
          exact ⟨t :: p, q, rfl, by simp [braceLevel, ht2]; omega⟩
      · rename_i ht2
        obtain ⟨p, q, rfl, hp⟩ := ih _ hl h
        exact ⟨t :: p, q, rfl, by simp [braceLevel, ht, ht2]; omega⟩

/-- what the buffer puts between its tokens and the next line -/
def separator (b : LineBuffer) : List Token := if needDiamond b then [⟨.diamond, "⋄"⟩] else []

theorem braceLevel_separator (b : LineBuffer) : braceLevel (separator b) = 0 := by
  simp only [separator]; split <;> simp [braceLevel]

theorem joined_separator (ls : List (List Token)) (b : LineBuffer) (h : Joined ls b.tokens) (l : List Token) (hl : l ≠ []) :
    Joined (ls ++ [l]) (b.tokens ++ separator b ++ l) := by
  obtain ⟨tok, lev⟩ := b
  rcases List.eq_nil_or_concat tok with e | ⟨acc, x, e⟩
  · subst e
    simpa [separator, needDiamond] using Joined.first ls l h hl
  · rw [List.concat_eq_append] at e
    subst e
    by_cases hx : x.t = .leftBrace
    · simpa [separator, needDiamond, hx] using Joined.brace ls acc x l h hx hl
    · have := Joined.diamond ls acc x l h hx hl
      simpa [separator, needDiamond, hx] using this

theorem add_cases (ctx : ScanCtx) (b : LineBuffer) (line : List Char) :
    (∃ e, scanLine ctx line = .error e ∧ b.add ctx line = (.error e, .reset)) ∨
    (scanLine ctx line = .ok [] ∧ b.add ctx line = (.ok false, b)) ∨
    (∃ ts, ts ≠ [] ∧ scanLine ctx line = .ok ts ∧ countBraces b.level ts = none ∧ b.add ctx line = (.error .err, .reset)) ∨
    (∃ ts l, ts ≠ [] ∧ scanLine ctx line = .ok ts ∧ countBraces b.level ts = some l ∧
      b.add ctx line = (.ok (l = 0), ⟨b.tokens ++ separator b ++ ts, l⟩)) := by
  cases hs : scanLine ctx line with
  | error e => left; exact ⟨e, rfl, by simp [LineBuffer.add, hs]⟩
  | ok ts =>
    right
    cases ts with
    | nil => left; exact ⟨rfl, by simp [LineBuffer.add, hs]⟩
    | cons t ts =>
      right
      cases hc : countBraces b.level (t :: ts) with
      | none => left; exact ⟨_, by simp, rfl, hc, by simp [LineBuffer.add, hs, hc]⟩
      | some l =>
        right
        refine ⟨_, l, by simp, rfl, hc, ?_⟩
        simp [LineBuffer.add, hs, hc, separator]

/-- The buffer holds the lines added since it was empty, joined; its level is the number of open braces; it never has a closing brace too
many. -/
theorem C50_state {D : Type} (ctx : ScanCtx) (pctx : PCtx D) (ls : List (List Token)) (b : LineBuffer) (h : History ctx pctx ls b) :
    Joined ls b.tokens ∧ b.level = braceLevel b.tokens ∧ NoExtraBrace b.tokens := by
  have hreset : Joined [] LineBuffer.reset.tokens ∧ LineBuffer.reset.level = braceLevel LineBuffer.reset.tokens ∧
      NoExtraBrace LineBuffer.reset.tokens := by
    refine ⟨.nil, rfl, fun p q e => ?_⟩
    rw [nil_pre e]; exact Int.le_refl 0
  induction h with
  | new => exact hreset
  | parsed => exact hreset
  | failed ls b line e b' _ ha =>
    rcases add_cases ctx b line with ⟨_, _, h⟩ | ⟨_, h⟩ | ⟨_, _, _, _, h⟩ | ⟨_, _, _, _, _, h⟩
    all_goals rw [ha] at h
    all_goals simp only [Prod.mk.injEq] at h
    · rw [h.2]; exact hreset
    · exact absurd h.1 (by simp)
    · rw [h.2]; exact hreset
    · exact absurd h.1 (by simp)
  | added ls b line ts r b' _ hsc ha ih =>
    obtain ⟨ih1, ih2, ih3⟩ := ih
    have hl : 0 ≤ b.level := by rw [ih2]; exact ih3 b.tokens [] (by simp)
    rcases add_cases ctx b line with ⟨_, _, h⟩ | ⟨hs, h⟩ | ⟨_, _, _, _, h⟩ | ⟨ts', l, hne, hs, hc, h⟩
    all_goals rw [ha] at h
    all_goals simp only [Prod.mk.injEq] at h
    · exact absurd h.1 (by simp)
    · rw [hsc] at hs
      cases hs
      rw [h.2]
      exact ⟨.skip _ _ ih1, ih2, ih3⟩
    · exact absurd h.1 (by simp)
    · rw [hsc] at hs
      cases hs
      rw [h.2]
      obtain ⟨h1, h2⟩ := countBraces_some _ _ _ hl hc
      refine ⟨joined_separator ls b ih1 ts hne, ?_, ?_⟩
      · show l = braceLevel (b.tokens ++ separator b ++ ts)
        rw [braceLevel_append, braceLevel_append, braceLevel_separator, h1, ih2]; omega
      · intro p q e
        change b.tokens ++ separator b ++ ts = p ++ q at e
        rcases List.append_eq_append_iff.1 e with ⟨a, e1, e2⟩ | ⟨a, e1, e2⟩
        · have := h2 a q e2
          rw [e1, braceLevel_append, braceLevel_append, braceLevel_separator, ← ih2]; omega
        · rcases List.append_eq_append_iff.1 e1 with ⟨c, e3, e4⟩ | ⟨c, e3, e4⟩
          · have hz : braceLevel c = 0 := by
              simp only [separator] at e4
              split at e4
              · cases c with
                | nil => rfl
                | cons x c =>
                  simp at e4
                  obtain ⟨rfl, e5⟩ := e4
                  have : c = [] := by
                    cases c with
                    | nil => rfl
                    | cons => simp at e5
                  subst this; simp [braceLevel]
              · cases c with
                | nil => rfl
                | cons => simp at e4
            rw [e3, braceLevel_append, hz, ← ih2]; omega
          · exact ih3 p c e3

/-- A line with tokens completes the block exactly if all braces are closed then; a line without tokens never does and changes
nothing. -/
theorem C50_complete {D : Type} (ctx : ScanCtx) (pctx : PCtx D) (ls : List (List Token)) (b : LineBuffer) (h : History ctx pctx ls b)
    (line : List Char) (ts : List Token) (hs : scanLine ctx line = .ok ts) (r : Bool) (b' : LineBuffer) (ha : b.add ctx line = (.ok r, b')) :
    (ts = [] → r = false ∧ b' = b) ∧ (ts ≠ [] → (r = true ↔ braceLevel b'.tokens = 0)) := by
  have hb' := C50_state ctx pctx _ b' (.added ls b line ts r b' h hs ha)
  rcases add_cases ctx b line with ⟨_, _, h⟩ | ⟨hs', h⟩ | ⟨_, _, _, _, h⟩ | ⟨ts', l, hne, hs', hc, h⟩
  all_goals rw [ha] at h
  all_goals simp only [Prod.mk.injEq] at h
  · exact absurd h.1 (by simp)
  · rw [hs] at hs'
    cases hs'
    exact ⟨fun _ => ⟨by simpa using h.1, h.2⟩, fun hne => absurd rfl hne⟩
  · exact absurd h.1 (by simp)
  · rw [hs] at hs'
    cases hs'
    refine ⟨fun e => absurd e hne, fun _ => ?_⟩
    have h1 : r = decide (l = 0) := by simpa using h.1
    have h2 : b'.level = l := by rw [h.2]
    rw [h1, ← hb'.2.1, h2]; simp

/-- A line is refused exactly if it cannot be scanned or has a closing brace too many; the buffer is empty then. -/
theorem C50_error {D : Type} (ctx : ScanCtx) (pctx : PCtx D) (ls : List (List Token)) (b : LineBuffer) (h : History ctx pctx ls b)
    (line : List Char) :
    ((∃ e b', b.add ctx line = (.error e, b')) ↔
      (∃ e, scanLine ctx line = .error e) ∨ ∃ ts p q, scanLine ctx line = .ok ts ∧ ts = p ++ q ∧ braceLevel (b.tokens ++ p) < 0) ∧
    (∀ e b', b.add ctx line = (.error e, b') → b' = .reset) := by
  obtain ⟨_, ih2, ih3⟩ := C50_state ctx pctx ls b h
  have hl : 0 ≤ b.level := by rw [ih2]; exact ih3 b.tokens [] (by simp)
  rcases add_cases ctx b line with ⟨e, hs, h⟩ | ⟨hs, h⟩ | ⟨ts, hne, hs, hc, h⟩ | ⟨ts, l, hne, hs, hc, h⟩
  · rw [h]
    refine ⟨⟨fun _ => .inl ⟨e, hs⟩, fun _ => ⟨e, _, rfl⟩⟩, ?_⟩
    intro e' b' hh; simp at hh; exact hh.2.symm
  · rw [h]
    refine ⟨⟨fun ⟨e, b', hh⟩ => by simp at hh, ?_⟩, fun e' b' hh => by simp at hh⟩
    rintro (⟨e, he⟩ | ⟨ts, p, q, he, e2, hp⟩)
    · rw [hs] at he; cases he
    · rw [hs] at he; cases he
      rw [nil_pre e2, List.append_nil, ← ih2] at hp; omega
  · rw [h]
    refine ⟨⟨fun _ => .inr ?_, fun _ => ⟨.err, _, rfl⟩⟩, ?_⟩
    · obtain ⟨p, q, e, hp⟩ := countBraces_none _ _ hl hc
      exact ⟨ts, p, q, hs, e, by rw [braceLevel_append, ← ih2]; exact hp⟩
    · intro e' b' hh; simp at hh; exact hh.2.symm
  · rw [h]
    refine ⟨⟨fun ⟨e, b', hh⟩ => by simp at hh, ?_⟩, fun e' b' hh => by simp at hh⟩
    rintro (⟨e, he⟩ | ⟨ts', p, q, he, e2, hp⟩)
    · rw [hs] at he; cases he
    · rw [hs] at he; cases he
      have := (countBraces_some _ _ _ hl hc).2 p q e2
      rw [braceLevel_append, ← ih2] at hp; omega


/-- the tokens of all lines -/
def ScanAll (ctx : ScanCtx) : List (List Char) → List (List Token) → Prop := List.Forall₂ (fun l ts => scanLine ctx l = .ok ts)

theorem joined_unique (ls : List (List Token)) (a b : List Token) (ha : Joined ls a) (hb : Joined ls b) : a = b := by
  induction ha generalizing b with
  | nil =>
    generalize e : ([] : List (List Token)) = ls at hb
    cases hb <;> simp_all
  | skip ls acc _ ih =>
    generalize e : ls ++ [[]] = ls' at hb
    cases hb with
    | nil => simp at e
    | skip _ _ h => simp at e; subst e; exact ih _ h
    | first _ l h hl => simp at e; exact absurd e.2 hl
    | brace _ _ _ l h _ hl => simp at e; exact absurd e.2 hl
    | diamond _ _ _ l h _ hl => simp at e; exact absurd e.2 hl
  | first ls l _ hl ih =>
    generalize e : ls ++ [l] = ls' at hb
    cases hb with
    | nil => simp at e
    | skip _ _ h => simp at e; exact absurd e.2 hl
    | first _ l' h hl' => simp at e; exact e.2
    | brace _ _ _ l' h _ hl' =>
      simp at e
      obtain ⟨rfl, rfl⟩ := e
      exact absurd (ih _ h) (by simp)
    | diamond _ _ _ l' h _ hl' =>
      simp at e
      obtain ⟨rfl, rfl⟩ := e
      exact absurd (ih _ h) (by simp)
  | brace ls acc x l _ hx hl ih =>
    generalize e : ls ++ [l] = ls' at hb
    cases hb with
    | nil => simp at e
    | skip _ _ h => simp at e; exact absurd e.2 hl
    | first _ l' h hl' =>
      simp at e
      obtain ⟨rfl, rfl⟩ := e
      exact absurd (ih _ h) (by simp)
    | brace _ acc' x' l' h _ hl' =>
      simp at e
      obtain ⟨rfl, rfl⟩ := e
      rw [ih _ h]
    | diamond _ acc' x' l' h hx' hl' =>
      simp at e
      obtain ⟨rfl, rfl⟩ := e
      have := ih _ h
      have e2 := congrArg List.getLast? this
      simp at e2
      rw [e2] at hx
      exact absurd hx hx'
  | diamond ls acc x l _ hx hl ih =>
    generalize e : ls ++ [l] = ls' at hb
    cases hb with
    | nil => simp at e
    | skip _ _ h => simp at e; exact absurd e.2 hl
    | first _ l' h hl' =>
      simp at e
      obtain ⟨rfl, rfl⟩ := e
      exact absurd (ih _ h) (by simp)
    | brace _ acc' x' l' h hx' hl' =>
      simp at e
      obtain ⟨rfl, rfl⟩ := e
      have := ih _ h
      have e2 := congrArg List.getLast? this
      simp at e2
      rw [← e2] at hx'
      exact absurd hx' hx
    | diamond _ acc' x' l' h _ hl' =>
      simp at e
      obtain ⟨rfl, rfl⟩ := e
      rw [ih _ h]

theorem joined_prefix (ls' : List (List Token)) (all : List Token) (h : Joined ls' all) (ls m : List (List Token)) (e : ls' = ls ++ m) :
    ∃ acc q, Joined ls acc ∧ all = acc ++ q := by
  induction h generalizing m with
  | nil =>
    have : ls = [] := (List.append_eq_nil_iff.1 e.symm).1
    subst this
    exact ⟨[], [], .nil, rfl⟩
  | skip ls' acc h' ih =>
    rcases List.eq_nil_or_concat m with rfl | ⟨m', x, rfl⟩
    · simp at e; subst e; exact ⟨acc, [], .skip _ _ h', by simp⟩
    · rw [List.concat_eq_append, ← List.append_assoc] at e
      obtain ⟨a, q, h1, h2⟩ := ih m' (List.append_inj_left' e rfl)
      exact ⟨a, q, h1, h2⟩
  | first ls' l h' hl ih =>
    rcases List.eq_nil_or_concat m with rfl | ⟨m', x, rfl⟩
    · simp at e; subst e; exact ⟨l, [], .first _ _ h' hl, by simp⟩
    · rw [List.concat_eq_append, ← List.append_assoc] at e
      obtain ⟨a, q, h1, h2⟩ := ih m' (List.append_inj_left' e rfl)
      have : a = [] := by
        cases a with
        | nil => rfl
        | cons => simp at h2
      subst this
      exact ⟨[], l, h1, rfl⟩
  | brace ls' acc b l h' hb hl ih =>
    rcases List.eq_nil_or_concat m with rfl | ⟨m', x, rfl⟩
    · simp at e; subst e; exact ⟨_, [], .brace _ _ _ _ h' hb hl, by simp⟩
    · rw [List.concat_eq_append, ← List.append_assoc] at e
      obtain ⟨a, q, h1, h2⟩ := ih m' (List.append_inj_left' e rfl)
      exact ⟨a, q ++ l, h1, by rw [h2, List.append_assoc]⟩
  | diamond ls' acc b l h' hb hl ih =>
    rcases List.eq_nil_or_concat m with rfl | ⟨m', x, rfl⟩
    · simp at e; subst e; exact ⟨_, [], .diamond _ _ _ _ h' hb hl, by simp⟩
    · rw [List.concat_eq_append, ← List.append_assoc] at e
      obtain ⟨a, q, h1, h2⟩ := ih m' (List.append_inj_left' e rfl)
      exact ⟨a, q ++ ⟨.diamond, "⋄"⟩ :: l, h1, by rw [h2, List.append_assoc]⟩

/-- `ParseLines`, from a buffer in the middle of the lines -/
theorem parseLinesLoop_ok {D : Type} (ctx : ScanCtx) (pctx : PCtx D) (ls : List (List Token)) (b : LineBuffer) (h : History ctx pctx ls b)
    (lines : List (List Char)) (hne : lines ≠ []) (p : List (Option (Expr D))) (hp : parseLinesLoop ctx pctx b lines = .ok p) :
    ∃ toks all, ScanAll ctx lines toks ∧ toks.getLast? ≠ some [] ∧ Joined (ls ++ toks) all ∧ NoExtraBrace all ∧ braceLevel all = 0 ∧
      parseProgram pctx all = .ok p := by
  induction lines generalizing ls b with
  | nil => exact absurd rfl hne
  | cons l lines ih =>
    have step : ∀ r b', b.add ctx l = (.ok r, b') → ∃ ts, scanLine ctx l = .ok ts := by
      intro r b' ha
      rcases add_cases ctx b l with ⟨_, _, h⟩ | ⟨hs, h⟩ | ⟨_, _, _, _, h⟩ | ⟨ts', _, _, hs, _, h⟩
      · rw [ha] at h; simp at h
      · exact ⟨_, hs⟩
      · rw [ha] at h; simp at h
      · exact ⟨_, hs⟩
    cases lines with
    | nil =>
      simp only [parseLinesLoop] at hp
      split at hp
      · simp at hp
      · simp at hp
      · rename_i b' ha
        obtain ⟨ts, hs⟩ := step _ _ ha
        have hh := History.added ls b l ts true b' h hs ha
        have hst := C50_state ctx pctx _ _ hh
        have hc := C50_complete ctx pctx ls b h l ts hs true b' ha
        have hts : ts ≠ [] := fun e => absurd (hc.1 e).1 (by simp)
        exact ⟨[ts], b'.tokens, .cons hs .nil, by simpa using hts, hst.1, hst.2.2, (hc.2 hts).1 rfl, hp⟩
    | cons l' lines =>
      simp only [parseLinesLoop] at hp
      split at hp
      · simp at hp
      · rename_i r b' ha
        obtain ⟨ts, hs⟩ := step _ _ ha
        have hh := History.added ls b l ts r b' h hs ha
        obtain ⟨toks, all, h1, h2, h3, h4⟩ := ih _ b' hh (by simp) hp
        refine ⟨ts :: toks, all, .cons hs h1, ?_, by simpa using h3, h4⟩
        cases h1 with
        | cons _ _ => simpa using h2

theorem parseLinesLoop_eq {D : Type} (ctx : ScanCtx) (pctx : PCtx D) (ls : List (List Token)) (b : LineBuffer) (h : History ctx pctx ls b)
    (lines : List (List Char)) (toks : List (List Token)) (all : List Token) (hs : ScanAll ctx lines toks) (hne : lines ≠ [])
    (hl : toks.getLast? ≠ some []) (hj : Joined (ls ++ toks) all) (hn : NoExtraBrace all) (h0 : braceLevel all = 0) :
    parseLinesLoop ctx pctx b lines = parseProgram pctx all := by
  induction hs generalizing ls b with
  | nil => exact absurd rfl hne
  | @cons l ts lines toks hs hr ih =>
    have hadd : ∃ r b', b.add ctx l = (.ok r, b') := by
      cases ha : b.add ctx l with
      | mk r b' =>
        cases r with
        | ok r => exact ⟨r, b', rfl⟩
        | error e =>
          exfalso
          rcases (C50_error ctx pctx ls b h l).1.1 ⟨e, b', ha⟩ with ⟨e', he⟩ | ⟨ts', p, q, he, e2, hp⟩
          · rw [hs] at he; cases he
          · rw [hs] at he; cases he
            have hne : ts ≠ [] := by
              rintro rfl
              rw [nil_pre e2, List.append_nil, ← (C50_state ctx pctx ls b h).2.1] at hp
              have := (C50_state ctx pctx ls b h).2.2 b.tokens [] (by simp)
              rw [← (C50_state ctx pctx ls b h).2.1] at this
              omega
            obtain ⟨acc, r, h1, h2⟩ := joined_prefix _ all hj (ls ++ [ts]) toks (by simp)
            have h3 := joined_separator ls b (C50_state ctx pctx ls b h).1 ts hne
            have h4 := joined_unique _ _ _ h1 h3
            have := hn (b.tokens ++ separator b ++ p) (q ++ r) (by rw [h2, h4, e2]; simp)
            rw [braceLevel_append, braceLevel_append, braceLevel_separator] at this
            rw [braceLevel_append] at hp
            omega
    obtain ⟨r, b', ha⟩ := hadd
    have hh := History.added ls b l ts r b' h hs ha
    cases hr with
    | nil =>
      have hts : ts ≠ [] := by simpa using hl
      have e := joined_unique _ _ _ hj (C50_state ctx pctx _ _ hh).1
      have hr := ((C50_complete ctx pctx ls b h l ts hs r b' ha).2 hts).2 (by rw [← e]; exact h0)
      subst hr
      simp only [parseLinesLoop, ha, LineBuffer.parse, e]
    | @cons l' ts' lines toks hs' hr =>
      simp only [parseLinesLoop, ha]
      exact ih _ b' hh (by simp) (by simpa using hl) (by simpa using hj)

/-- Lines parse to a program exactly if all of them scan, the last one has tokens, no closing brace is too early, all braces are closed at the
end, and the joined lines parse to that program. -/
theorem C50_parse_lines {D : Type} (ctx : ScanCtx) (pctx : PCtx D) (lines : List (List Char)) (hne : lines ≠ []) (p : List (Option (Expr D))) :
    parseLines ctx pctx lines = .ok p ↔
    ∃ toks all, ScanAll ctx lines toks ∧ toks.getLast? ≠ some [] ∧ Joined toks all ∧ NoExtraBrace all ∧ braceLevel all = 0 ∧
      parseProgram pctx all = .ok p := by
  constructor
  · intro hp
    simpa using parseLinesLoop_ok ctx pctx [] .reset .new lines hne p hp
  · rintro ⟨toks, all, h1, h2, h3, h4, h5, h6⟩
    rw [← h6]
    exact parseLinesLoop_eq ctx pctx [] .reset .new lines toks all h1 hne h2 (by simpa using h3) h4 h5

/-- Joining is a function of the lines. -/
theorem C50_joined_unique (ls : List (List Token)) (a b : List Token) (ha : Joined ls a) (hb : Joined ls b) : a = b :=
  joined_unique ls a b ha hb

namespace ScanDemo

/-- a scanner with the symbols + and / -/
def ctx : ScanCtx where
  symbol c := if c = '+' then some "+" else if c = '/' then some "/" else if c = '.' then some "." else none
  letter c := ('a' ≤ c && c ≤ 'z') || ('A' ≤ c && c ≤ 'Z')
  number c := '0' ≤ c && c ≤ '9'
  space c := c == ' ' || c == '\t'
  cmd s := if s = "h" then some (fun ts => ⟨.identifier, "help"⟩ :: ts) else none

-- literals
example : scanLine ctx "'it''s' + \"a\\\"b\\u00e9\" `raw)".toList =
    .ok [⟨.chars, "it's"⟩, ⟨.symbol, "+"⟩, ⟨.string, "a\"bé"⟩, ⟨.string, "raw"⟩, ⟨.rightParen, ")"⟩] := by decide
example : Literal ctx "'it''s'".toList ⟨.chars, "it's"⟩ " + 1".toList := .chars "it's".toList _ (by decide)
example : Spells "a\\n".toList "a\n".toList := .plain _ _ _ (by decide) (by decide) (by decide) (.escape ['n'] '\n' [] [] (.letter _ _ (by decide)) .nil)
example : scanLine ctx "'abc".toList = .error .err := by decide
-- tokens of a line: numbers are as long as possible, a dot is a number only in front of a digit
example : scanLine ctx "pkg→x1+.5 1.2e¯3 +. a ⍝ 'comment".toList =
    .ok [⟨.identifier, "pkg→x1"⟩, ⟨.symbol, "+"⟩, ⟨.number, ".5"⟩, ⟨.number, "1.2e¯3"⟩, ⟨.symbol, "+"⟩, ⟨.symbol, "."⟩, ⟨.identifier, "a"⟩] := by
  decide
-- an unknown character
example : scanLine ctx "1 € 2".toList = .error .err := by decide
-- a command
example : scanLine ctx "/h a".toList = .ok [⟨.identifier, "help"⟩, ⟨.identifier, "a"⟩] := by decide

/-- A block over three lines. -/
example : (((LineBuffer.reset.add ctx "f {".toList).2.add ctx "1".toList).2.add ctx "}".toList) =
    (.ok true, ⟨[⟨.identifier, "f"⟩, ⟨.leftBrace, "{"⟩, ⟨.number, "1"⟩, ⟨.diamond, "⋄"⟩, ⟨.rightBrace, "}"⟩], 0⟩) := by decide

/-- Although the comment in the code says otherwise, a diamond is put in front of a line that starts with a closing brace. -/
theorem C50_diamond_before_brace : (((LineBuffer.reset.add ctx "{1".toList).2.add ctx "}".toList).2).tokens =
    [⟨.leftBrace, "{"⟩, ⟨.number, "1"⟩, ⟨.diamond, "⋄"⟩, ⟨.rightBrace, "}"⟩] := by decide

/-- A last line without tokens, e.g. after a trailing line break, makes `ParseLines` fail although no brace is open. -/
theorem C50_trailing_empty_line {D : Type} (pctx : PCtx D) : parseLines ctx pctx ["1".toList, [] ] = .error .err := rfl

/-- An extra closing brace empties the buffer. -/
example : (LineBuffer.reset.add ctx "{".toList).2.add ctx "}}".toList = (.error .err, .reset) := by decide

end ScanDemo

end Iv

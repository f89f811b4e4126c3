import Verif.Model.Commands
import Verif.Props.Scan
import Verif.Props.Program
/-
C86: commands.
-/
namespace Iv
variable {D H : Type}

/- ## Specification -/

/-- the letters in the names of the commands and their functions -/
abbrev cmdLetters : List Char := ['a', 'c', 'd', 'h', 'i', 'l', 'm', 'n', 'o', 'p', 'q', 't', 'u', 'T']

/-- The scanner of an interpreter with the packages a and io: the characters of the commands are letters, and only `/` and `←` are symbols. -/
structure StdScan (ctx : ScanCtx) : Prop where
  cmd : ctx.cmd = stdCommands
  letter : ∀ c ∈ cmdLetters, ctx.letter c = true ∧ ctx.symbol c = none
  slash : ctx.symbol '/' = some "/"
  assign : ctx.symbol '←' = some "←"
  other : ∀ c ∈ [' ', '→', '⋄', '0', '`'], ctx.symbol c = none ∧ ctx.letter c = false
  number : ∀ c ∈ [' ', '→', '⋄', '←', '`', '/'], ctx.number c = false
  assignLetter : ctx.letter '←' = false
  space : ctx.space ' ' = true

/-- the line does not start with a command -/
def NoCommand (ctx : ScanCtx) (line : List Char) : Prop := ∀ us, Lexes ctx line us →
  ∀ t0 t1 rest, us = t0 :: t1 :: rest → t0.t = .symbol → t0.s ∈ ["/", "\\"] → t1.t = .identifier → ctx.cmd t1.s = none

/-- a word that can be written after a backtick -/
def TickWord (ctx : ScanCtx) (w : List Char) : Prop := ∀ c ∈ w, ¬ EndsTick ctx c

/- ## Proof -/

theorem StdScan.first {ctx : ScanCtx} (h : StdScan ctx) {c : Char} (hc : c ∈ cmdLetters) : FirstInName ctx c := .inr (h.letter c hc).1

theorem StdScan.inName {ctx : ScanCtx} (h : StdScan ctx) {c : Char} (hc : c ∈ cmdLetters) : InName ctx c := .inr (.inr (h.letter c hc).1)

theorem StdScan.notInName {ctx : ScanCtx} (h : StdScan ctx) {c : Char} (hc : c ∈ [' ', '→', '⋄', '`']) : ¬ InName ctx c := by
  rintro (h1 | h1 | h1)
  · rw [h.number c (by revert hc; simp; grind)] at h1; cases h1
  · subst h1; revert hc; decide
  · rw [(h.other c (by revert hc; simp; grind)).2] at h1; cases h1

theorem StdScan.notFirst {ctx : ScanCtx} (h : StdScan ctx) {c : Char} (hc : c ∈ [' ', '⋄']) : ¬ FirstInName ctx c := by
  rintro (h1 | h1)
  · simp only [List.mem_cons, List.not_mem_nil, or_false] at hc h1
    rcases hc with rfl | rfl <;> revert h1 <;> decide
  · rw [(h.other c (by revert hc; simp; grind)).2] at h1; cases h1

theorem noLiteral_char (c : Char) (cs : List Char) (h1 : c ∉ ['"', '\'', '`']) (h2 : ¬ Digit c) (h3 : c ≠ '¯') (h4 : c ≠ '.') : NoLiteral (c :: cs) := by
  refine ⟨fun d hd => ?_, ?_⟩
  · simp only [List.head?_cons, Option.some.injEq] at hd; subst hd; exact h1
  · rintro (h | h | h)
    · exact h2 h
    · exact h3 h
    · exact h4 h.1

theorem noLiteral_letter {c : Char} (hc : c ∈ cmdLetters) (cs : List Char) : NoLiteral (c :: cs) := by
  refine noLiteral_char c cs ?_ ?_ ?_ ?_ <;>
  · simp only [cmdLetters, List.mem_cons, List.not_mem_nil, or_false] at hc
    try simp only [Digit]
    rcases hc with rfl | rfl | rfl | rfl | rfl | rfl | rfl | rfl | rfl | rfl | rfl | rfl | rfl | rfl <;> decide

/-- a name of letters followed by a character that is not part of it -/
theorem lex_name {ctx : ScanCtx} (h : StdScan ctx) (c : Char) (w rest : List Char) (ts : List Token) (hc : ∀ d ∈ c :: w, d ∈ cmdLetters)
    (hr : ∀ d, rest.head? = some d → d ∈ [' ', '⋄']) (hl : Lexes ctx rest ts) :
    Lexes ctx (c :: w ++ rest) (⟨.identifier, String.ofList (c :: w)⟩ :: ts) := by
  refine .token _ _ _ _ (.name c w rest (noLiteral_letter (hc c (by simp)) _) (h.letter c (hc c (by simp))).2 (h.first (hc c (by simp)))
    (fun d hd => h.inName (hc d (by simp [hd]))) (fun d hd => ⟨h.notInName (by have := hr d hd; revert this; simp; grind), ?_⟩)) hl
  have := hr d hd
  rintro rfl
  revert this; decide

/-- a name in a package -/
theorem lex_qualified {ctx : ScanCtx} (h : StdScan ctx) (c : Char) (w v rest : List Char) (ts : List Token)
    (hc : ∀ d ∈ c :: w ++ v, d ∈ cmdLetters) (hr : ∀ d, rest.head? = some d → d ∈ [' ', '⋄']) (hl : Lexes ctx rest ts) :
    Lexes ctx (c :: w ++ '→' :: v ++ rest) (⟨.identifier, String.ofList (c :: w ++ '→' :: v)⟩ :: ts) := by
  refine .token _ _ _ _ (.qualified c w v rest (noLiteral_letter (hc c (by simp)) _) (h.letter c (hc c (by simp))).2 (h.first (hc c (by simp)))
    (fun d hd => h.inName (hc d (by simp [hd]))) (h.notInName (by decide)) (fun d hd => h.inName (hc d (by simp [hd])))
    (fun d hd => h.notInName (by have := hr d hd; revert this; simp; grind))) hl

theorem lex_blank {ctx : ScanCtx} (h : StdScan ctx) (cs : List Char) (ts : List Token) (hl : Lexes ctx cs ts) : Lexes ctx (' ' :: cs) ts :=
  .blank ' ' cs ts (by decide) (h.other ' ' (by decide)).1 (h.notFirst (by decide)) hl

theorem lex_slash {ctx : ScanCtx} (h : StdScan ctx) (cs : List Char) (ts : List Token) (hl : Lexes ctx cs ts) : Lexes ctx ('/' :: cs) (⟨.symbol, "/"⟩ :: ts) :=
  .token ['/'] _ cs ts (.symbol '/' "/" cs (noLiteral_char _ _ (by decide) (by unfold Digit; decide) (by decide) (by decide)) h.slash) hl

theorem lex_zero {ctx : ScanCtx} (cs : List Char) (ts : List Token) (hr : ∀ d, cs.head? = some d → ¬ InNumber d) (hl : Lexes ctx cs ts) :
    Lexes ctx ('0' :: cs) (⟨.number, "0"⟩ :: ts) :=
  .token ['0'] _ cs ts (.number ['0'] cs (.inl (by unfold Digit; decide)) (by intro c hc; simp at hc; subst hc; exact .inl (by unfold Digit; decide)) hr) hl

theorem lex_tick {ctx : ScanCtx} (h : StdScan ctx) (w cs : List Char) (ts : List Token) (hw : TickWord ctx w) (hr : ∀ d, cs.head? = some d → d = ' ')
    (hl : Lexes ctx cs ts) : Lexes ctx ('`' :: w ++ cs) (⟨.string, String.ofList w⟩ :: ts) :=
  .token _ _ cs ts (.literal _ _ _ (.tick w cs hw (fun d hd => by rw [hr d hd]; exact .inl h.space))) hl

/-- a line without tokens that are rewritten -/
theorem scan_plain {ctx : ScanCtx} (line : List Char) (ts : List Token) (hl : Lexes ctx line ts) (t : Token) (rest : List Token) (e : ts = t :: rest) (ht : t.t ≠ .symbol) :
    scanLine ctx line = .ok ts :=
  (C49_scan ctx line ts).2 ⟨ts, hl, .plain ts (fun a b r e' h => absurd h (by rw [e] at e'; cases e'; exact ht))⟩

theorem noCommand_scan (ctx : ScanCtx) (line : List Char) (us : List Token) (hl : Lexes ctx line us) (h : NoCommand ctx line) : Rewritten ctx us us :=
  .plain us (h us hl)

/-- a command line -/
theorem scan_command {ctx : ScanCtx} (h : StdScan ctx) (c : Char) (w rest : List Char) (hc : ∀ d ∈ c :: w, d ∈ cmdLetters)
    (f : List Token → List Token) (hf : stdCommands (String.ofList (c :: w)) = some f) (hr : ∀ d, rest.head? = some d → d = ' ')
    (us ts : List Token) (hl : Lexes ctx rest us) (hw : Rewritten ctx us ts) :
    scanLine ctx ('/' :: (c :: w ++ rest)) = .ok (f ts) := by
  refine (C49_scan ctx _ _).2 ⟨_, lex_slash h _ _ (lex_name h c w rest us hc (fun d hd => by rw [hr d hd]; decide) hl), ?_⟩
  exact .command _ _ us ts f rfl (by decide) rfl (by rw [h.cmd]; exact hf) hw

theorem scan_lexes (ctx : ScanCtx) (rest : List Char) (ts : List Token) (h : scanLine ctx rest = .ok ts) : ∃ us, Lexes ctx rest us ∧ Rewritten ctx us ts :=
  (C49_scan ctx rest ts).1 h

theorem statements_snoc (ts : List Token) (r : List (List Token)) (h : Statements ts r) (hne : ts ≠ []) (hb : braceLevel ts = 0)
    (hl : ∀ t, ts.getLast? = some t → t.t ≠ .diamond) (d : Token) (hd : d.t = .diamond) (s : List Token) (hs : s ≠ []) (ho : OneStatement s) :
    Statements (ts ++ d :: s) (r ++ [s]) := by
  induction h with
  | nil => exact absurd rfl hne
  | last s' hne' ho' => exact .cons s' d s [s] ho' hb hd (.last s hs ho)
  | cons s' d' us r' ho' hb' hd' hr ih =>
    have hus : us ≠ [] := by
      rintro rfl
      exact hl d' (by simp) hd'
    rw [List.append_assoc]
    refine .cons s' d' (us ++ d :: s) (r' ++ [s]) ho' hb' hd' (ih hus ?_ ?_)
    · rw [braceLevel_append, hb'] at hb
      simp only [braceLevel, hd'] at hb
      simpa using hb
    · intro t ht
      refine hl t ?_
      rw [List.getLast?_append, List.getLast?_cons_of_ne_nil hus, ht]
      rfl

/- ## Theorems -/

/-- A command line is the command applied to what the rest of the line stands for, in which commands are rewritten first. -/
theorem C86_nested (ctx : ScanCtx) (h : StdScan ctx) (rest : List Char) (ts : List Token) (hs : scanLine ctx rest = .ok ts) :
    scanLine ctx ("/p ".toList ++ rest) = .ok (⟨.identifier, "a→p"⟩ :: ts) ∧
    scanLine ctx ("/h ".toList ++ rest) = .ok (⟨.identifier, "a→h"⟩ :: ⟨.number, "0"⟩ :: ts) ∧
    scanLine ctx ("/q ".toList ++ rest) = .ok (⟨.identifier, "a→q"⟩ :: ⟨.number, "0"⟩ :: ts) ∧
    (ts ≠ [] → scanLine ctx ("/cd ".toList ++ rest) = .ok (⟨.identifier, "io→cd"⟩ :: ts)) ∧
    ((∀ a b, ts = [a, b] → ¬ (a.t = .string ∧ b.t = .string)) → scanLine ctx ("/l ".toList ++ rest) = .ok (⟨.identifier, "io→l"⟩ :: ts)) := by
  obtain ⟨us, hl, hw⟩ := scan_lexes ctx rest ts hs
  have hb := lex_blank h rest us hl
  refine ⟨scan_command h 'p' [] (' ' :: rest) (by decide) _ rfl (by simp) us ts hb hw, scan_command h 'h' [] (' ' :: rest) (by decide) _ rfl (by simp) us ts hb hw,
    scan_command h 'q' [] (' ' :: rest) (by decide) _ rfl (by simp) us ts hb hw, fun hne => ?_, fun hn => ?_⟩
  · refine (scan_command h 'c' ['d'] (' ' :: rest) (by decide) cdCmd rfl (by simp) us ts hb hw).trans ?_
    cases ts with
    | nil => exact absurd rfl hne
    | cons t ts => rfl
  · refine (scan_command h 'l' [] (' ' :: rest) (by decide) loadCmd rfl (by simp) us ts hb hw).trans ?_
    match ts, hn with
    | [], _ => rfl
    | [_], _ => rfl
    | [a, b], hn => simp only [loadCmd]; rw [if_neg (hn a b rfl)]
    | _ :: _ :: _ :: _, _ => rfl

/-- The short forms: each command line means the same as the written-out line, for every rest that is not a command itself. -/
theorem C86_short_forms (ctx : ScanCtx) (h : StdScan ctx) :
    scanLine ctx "/h".toList = scanLine ctx "a→h 0".toList ∧
    scanLine ctx "/q".toList = scanLine ctx "a→q 0".toList ∧
    scanLine ctx "/cd".toList = scanLine ctx "io→cd 0".toList ∧
    scanLine ctx "/m".toList = scanLine ctx "io→mount 0".toList ∧
    (∀ rest us, Lexes ctx rest us → NoCommand ctx rest → scanLine ctx ("/p ".toList ++ rest) = scanLine ctx ("a→p ".toList ++ rest)) := by
  have hz : Lexes ctx " 0".toList [⟨.number, "0"⟩] := lex_blank h _ _ (lex_zero [] [] (by simp) .done)
  have hc : ∀ (c : Char) (w : List Char) (f), (∀ d ∈ c :: w, d ∈ cmdLetters) → stdCommands (String.ofList (c :: w)) = some f →
      scanLine ctx ('/' :: (c :: w)) = .ok (f []) := by
    intro c w f hc hf
    have := scan_command h c w [] hc f hf (by simp) [] [] .done (.plain [] (by simp))
    rwa [List.append_nil] at this
  have hq : ∀ (c : Char) (w v : List Char), (∀ d ∈ c :: w ++ v, d ∈ cmdLetters) →
      scanLine ctx (c :: w ++ '→' :: v ++ " 0".toList) = .ok [⟨.identifier, String.ofList (c :: w ++ '→' :: v)⟩, ⟨.number, "0"⟩] :=
    fun c w v hv => scan_plain _ _ (lex_qualified h c w v _ _ hv (by intro d hd; simp at hd; subst hd; decide) hz) _ _ rfl (by simp)
  refine ⟨?_, ?_, ?_, ?_, ?_⟩
  · exact (hc 'h' [] _ (by decide) rfl).trans (hq 'a' [] ['h'] (by decide)).symm
  · exact (hc 'q' [] _ (by decide) rfl).trans (hq 'a' [] ['q'] (by decide)).symm
  · exact (hc 'c' ['d'] _ (by decide) rfl).trans (hq 'i' ['o'] ['c', 'd'] (by decide)).symm
  · exact (hc 'm' [] _ (by decide) rfl).trans (hq 'i' ['o'] ['m', 'o', 'u', 'n', 't'] (by decide)).symm
  · intro rest us hl hn
    refine (scan_command h 'p' [] (' ' :: rest) (by decide) printCmd rfl (by simp) us us (lex_blank h _ _ hl) (noCommand_scan ctx rest us hl hn)).trans ?_
    exact (scan_plain _ _ (lex_qualified h 'a' [] ['p'] (' ' :: rest) us (by decide) (by simp) (lex_blank h _ _ hl)) _ _ rfl (by simp)).symm

/-- Loading a file as a package, and mounting: the file comes first, the name of the package (the mount point) second. -/
theorem C86_load_mount (ctx : ScanCtx) (h : StdScan ctx) (file name : List Char) (h1 : TickWord ctx file) (h2 : TickWord ctx name) :
    scanLine ctx ("/l `".toList ++ file ++ " `".toList ++ name) = scanLine ctx ("`".toList ++ name ++ " io→l `".toList ++ file) ∧
    scanLine ctx ("/m `".toList ++ file ++ " `".toList ++ name) = scanLine ctx ("`".toList ++ name ++ " io→mount `".toList ++ file) := by
  have key : ∀ a b : List Char, TickWord ctx a → TickWord ctx b → Lexes ctx (' ' :: ('`' :: a ++ (' ' :: ('`' :: b ++ [])))) [⟨.string, String.ofList a⟩, ⟨.string, String.ofList b⟩] :=
    fun a b ha hb => lex_blank h _ _ (lex_tick h a _ _ ha (by simp) (lex_blank h _ _ (lex_tick h b [] [] hb (by simp) .done)))
  have hre : ∀ a b : List Char, Rewritten ctx [⟨.string, String.ofList a⟩, ⟨.string, String.ofList b⟩] [⟨.string, String.ofList a⟩, ⟨.string, String.ofList b⟩] :=
    fun a b => .plain _ (by intro t0 t1 r e ht; cases e; cases ht)
  have hp : ∀ (v : List Char), (∀ d ∈ 'i' :: ['o'] ++ v, d ∈ cmdLetters) →
      scanLine ctx ('`' :: name ++ (' ' :: ('i' :: ['o'] ++ '→' :: v ++ (' ' :: ('`' :: file ++ []))))) =
        .ok [⟨.string, String.ofList name⟩, ⟨.identifier, String.ofList ('i' :: ['o'] ++ '→' :: v)⟩, ⟨.string, String.ofList file⟩] := by
    intro v hv
    refine scan_plain _ _ (lex_tick h name _ _ h2 (by simp) (lex_blank h _ _ (lex_qualified h 'i' ['o'] v _ _ hv (by simp) (lex_blank h _ _ (lex_tick h file [] [] h1 (by simp) .done))))) _ _ rfl (by simp)
  constructor
  · refine Eq.trans ?_ ((hp ['l'] (by decide)).symm.trans ?_)
    · refine Eq.trans ?_ (scan_command h 'l' [] _ (by decide) loadCmd rfl (by simp) _ _ (key file name h1 h2) (hre file name))
      simp
    · simp
  · refine Eq.trans ?_ ((hp ['m', 'o', 'u', 'n', 't'] (by decide)).symm.trans ?_)
    · refine Eq.trans ?_ (scan_command h 'm' [] _ (by decide) mountCmd rfl (by simp) _ _ (key file name h1 h2) (hre file name))
      simp
    · simp

/-- `/m` with any tokens: the first two change places; the symbols `/` and `.` are taken as strings; everything else is as written.  With a single
token nothing is called. -/
theorem C86_mount_tokens (ctx : ScanCtx) (h : StdScan ctx) (rest : List Char) (ts : List Token) (hs : scanLine ctx rest = .ok ts) :
    (∀ a b us, ts = a :: b :: us → ∃ a' b', scanLine ctx ("/m ".toList ++ rest) = .ok (b' :: ⟨.identifier, "io→mount"⟩ :: a' :: us) ∧
      ((a ∈ [(⟨.symbol, "/"⟩ : Token), ⟨.symbol, "."⟩] ∧ a' = ⟨.string, a.s⟩) ∨ (a ∉ [(⟨.symbol, "/"⟩ : Token), ⟨.symbol, "."⟩] ∧ a' = a)) ∧
      ((b ∈ [(⟨.symbol, "/"⟩ : Token), ⟨.symbol, "."⟩] ∧ b' = ⟨.string, b.s⟩) ∨ (b ∉ [(⟨.symbol, "/"⟩ : Token), ⟨.symbol, "."⟩] ∧ b' = b))) ∧
    (∀ a, ts = [a] → scanLine ctx ("/m ".toList ++ rest) = .ok [a]) := by
  obtain ⟨us, hl, hw⟩ := scan_lexes ctx rest ts hs
  have hc := scan_command h 'm' [] (' ' :: rest) (by decide) mountCmd rfl (by simp) us ts (lex_blank h _ _ hl) hw
  have hp : ∀ t : Token, (t ∈ [(⟨.symbol, "/"⟩ : Token), ⟨.symbol, "."⟩] ∧ pathToken t = ⟨.string, t.s⟩) ∨
      (t ∉ [(⟨.symbol, "/"⟩ : Token), ⟨.symbol, "."⟩] ∧ pathToken t = t) := by
    rintro ⟨k, w⟩
    rw [pathToken]
    by_cases ht : k = .symbol ∧ (w = "/" ∨ w = ".")
    · refine .inl ⟨?_, if_pos ht⟩
      obtain ⟨rfl, rfl | rfl⟩ := ht <;> simp
    · refine .inr ⟨?_, if_neg ht⟩
      intro hm
      simp only [List.mem_cons, List.not_mem_nil, or_false, Token.mk.injEq] at hm
      rcases hm with ⟨h1, h2⟩ | ⟨h1, h2⟩
      · exact ht ⟨h1, .inl h2⟩
      · exact ht ⟨h1, .inr h2⟩
  refine ⟨fun a b vs e => ?_, fun a e => ?_⟩
  · subst e
    exact ⟨pathToken a, pathToken b, hc, hp a, hp b⟩
  · subst e
    exact hc

/-- `/t` in front of a line: the time is taken before the first and after the last statement, and the statements of the line are unchanged
between them.  The braces of the line must be balanced and it must not end with a diamond. -/
theorem C86_time (ctx : ScanCtx) (h : StdScan ctx) (rest : List Char) (ts : List Token) (hs : scanLine ctx rest = .ok ts) (r : List (List Token))
    (hr : Statements ts r) (hne : ts ≠ []) (hb : braceLevel ts = 0) (hl : ∀ t, ts.getLast? = some t → t.t ≠ .diamond) :
    ∃ us, scanLine ctx ("/t ".toList ++ rest) = .ok us ∧
      Statements us ([[⟨.identifier, "T__"⟩, ⟨.symbol, "←"⟩, ⟨.identifier, "a→t"⟩, ⟨.number, "0"⟩]] ++ r ++ [[⟨.identifier, "a→t"⟩, ⟨.identifier, "T__"⟩]]) := by
  obtain ⟨vs, hvs, hw⟩ := scan_lexes ctx rest ts hs
  refine ⟨timeCmd ts, scan_command h 't' [] (' ' :: rest) (by decide) timeCmd rfl (by simp) vs ts (lex_blank h _ _ hvs) hw, ?_⟩
  have one : ∀ s : List Token, (∀ t ∈ s, t.t ≠ .leftBrace ∧ t.t ≠ .rightBrace ∧ t.t ≠ .diamond) → OneStatement s ∧ braceLevel s = 0 := by
    intro s hs
    have hb : ∀ p : List Token, (∀ t ∈ p, t.t ≠ .leftBrace ∧ t.t ≠ .rightBrace ∧ t.t ≠ .diamond) → braceLevel p = 0 := by
      intro p hp
      induction p with
      | nil => rfl
      | cons t p ih =>
        have := hp t (by simp)
        simp only [braceLevel, this.1, this.2.1, if_false, ih (fun t ht => hp t (by simp [ht])), Int.add_zero]
    refine ⟨⟨fun p q e => ?_, fun p d q e hd => ?_⟩, hb s hs⟩
    · rw [hb p (fun t ht => hs t (by rw [e]; simp [ht]))]
    · exact absurd hd (hs d (by rw [e]; simp)).2.2
  have h1 := one [⟨.identifier, "T__"⟩, ⟨.symbol, "←"⟩, ⟨.identifier, "a→t"⟩, ⟨.number, "0"⟩] (by decide)
  have h2 := one [⟨.identifier, "a→t"⟩, ⟨.identifier, "T__"⟩] (by decide)
  have := statements_snoc ts r hr hne hb hl ⟨.diamond, "⋄"⟩ rfl _ (by simp) h2.1
  have := Statements.cons _ ⟨.diamond, "⋄"⟩ _ _ h1.1 h1.2 rfl this
  rw [timeCmd]
  simpa using this

/-- the program of a line with `/t` is the program of the line between the two -/
theorem C86_time_program (ctx : ScanCtx) (h : StdScan ctx) (pctx : PCtx D) (rest : List Char) (ts : List Token) (hs : scanLine ctx rest = .ok ts)
    (hne : ts ≠ []) (hb : braceLevel ts = 0) (hl : ∀ t, ts.getLast? = some t → t.t ≠ .diamond) (p : List (Option (Expr D)))
    (hp : parseProgram pctx ts = .ok p) (e0 e1 : Option (Expr D))
    (h0 : parseProgram pctx [⟨.identifier, "T__"⟩, ⟨.symbol, "←"⟩, ⟨.identifier, "a→t"⟩, ⟨.number, "0"⟩] = .ok [e0])
    (h1 : parseProgram pctx [⟨.identifier, "a→t"⟩, ⟨.identifier, "T__"⟩] = .ok [e1]) :
    ∃ us, scanLine ctx ("/t ".toList ++ rest) = .ok us ∧ parseProgram pctx us = .ok ([e0] ++ p ++ [e1]) := by
  rcases C47_total pctx ts with ⟨r, hr⟩ | ⟨_, x, hx⟩
  · obtain ⟨us, hu, hst⟩ := C86_time ctx h rest ts hs r hr hne hb hl
    refine ⟨us, hu, ?_⟩
    have hrne : r ≠ [] := by
      rintro rfl
      cases hr
      exact hne rfl
    rw [C47_statements pctx ts r hr hrne] at hp
    have single : ∀ s : List Token, s ≠ [] → OneStatement s → parseProgram pctx s = [s].mapM (parseOne pctx) :=
      fun s hs ho => C47_statements pctx s [s] (.last s hs ho) (by simp)
    have o : ∀ s : List Token, (∀ t ∈ s, t.t ≠ .leftBrace ∧ t.t ≠ .rightBrace ∧ t.t ≠ .diamond) → OneStatement s := by
      intro s hs
      have hb : ∀ p : List Token, (∀ t ∈ p, t.t ≠ .leftBrace ∧ t.t ≠ .rightBrace ∧ t.t ≠ .diamond) → braceLevel p = 0 := by
        intro p hp
        induction p with
        | nil => rfl
        | cons t p ih =>
          have := hp t (by simp)
          simp only [braceLevel, this.1, this.2.1, if_false, ih (fun t ht => hp t (by simp [ht])), Int.add_zero]
      refine ⟨fun p q e => ?_, fun p d q e hd => ?_⟩
      · rw [hb p (fun t ht => hs t (by rw [e]; simp [ht]))]
      · exact absurd hd (hs d (by rw [e]; simp)).2.2
    rw [single _ (by simp) (o _ (by decide))] at h0 h1
    rw [C47_statements pctx us _ hst (by simp), List.mapM_append, List.mapM_append, h0, hp, h1]
    rfl
  · rw [hx] at hp; cases hp

/-- With an empty line `/t` has an empty statement in the middle, which stops the program. -/
theorem C86_time_empty (ctx : ScanCtx) (h : StdScan ctx) : ∃ us, scanLine ctx "/t".toList = .ok us ∧
    Statements us [[⟨.identifier, "T__"⟩, ⟨.symbol, "←"⟩, ⟨.identifier, "a→t"⟩, ⟨.number, "0"⟩], [], [⟨.identifier, "a→t"⟩, ⟨.identifier, "T__"⟩]] := by
  refine ⟨timeCmd [], ?_, ?_⟩
  · have := scan_command h 't' [] [] (by decide) timeCmd rfl (by simp) [] [] .done (.plain [] (by simp))
    exact this
  · refine .cons [_, _, _, _] _ _ _ ?_ rfl rfl (.cons [] _ _ _ ?_ rfl rfl (.last _ (by simp) ?_))
    all_goals
      constructor
      · intro p q e
        have hp := congrArg (List.take p.length) e
        rw [List.take_left] at hp
        rw [← hp]
        have : p.length ≤ 4 := by have := congrArg List.length e; simp at this; omega
        generalize p.length = k at this
        have : k = 0 ∨ k = 1 ∨ k = 2 ∨ k = 3 ∨ k = 4 := by omega
        rcases this with rfl | rfl | rfl | rfl | rfl <;> decide
      · intro p d q e hd
        have hm : d ∈ p ++ d :: q := by simp
        rw [← e] at hm
        simp only [List.mem_cons, List.not_mem_nil, or_false] at hm
        all_goals first
          | (rcases hm with rfl | rfl | rfl | rfl <;> cases hd)
          | (rcases hm with rfl | rfl <;> cases hd)

/-- Commands are rewritten line by line: in front of a line that opens a block, the end of the time measurement lands inside of the block. -/
theorem C86_time_block (b : Token) (ts : List Token) (hb : b.t = .leftBrace) (h0 : braceLevel ts = 0) :
    braceLevel ((timeCmd (ts ++ [b])).take (5 + ts.length + 1)) = 1 ∧ ((timeCmd (ts ++ [b])).drop (5 + ts.length + 1)).map Token.s = ["⋄", "a→t", "T__"] := by
  have hsplit : timeCmd (ts ++ [b]) = ([⟨.identifier, "T__"⟩, ⟨.symbol, "←"⟩, ⟨.identifier, "a→t"⟩, ⟨.number, "0"⟩, ⟨.diamond, "⋄"⟩] ++ ts ++ [b]) ++
      [⟨.diamond, "⋄"⟩, ⟨.identifier, "a→t"⟩, ⟨.identifier, "T__"⟩] := by simp [timeCmd]
  have hlen : ([(⟨.identifier, "T__"⟩ : Token), ⟨.symbol, "←"⟩, ⟨.identifier, "a→t"⟩, ⟨.number, "0"⟩, ⟨.diamond, "⋄"⟩] ++ ts ++ [b]).length = 5 + ts.length + 1 := by
    simp only [List.length_append, List.length_cons, List.length_nil]
  rw [hsplit, ← hlen, List.take_left, List.drop_left]
  refine ⟨?_, rfl⟩
  rw [braceLevel_append, braceLevel_append, h0]
  simp [braceLevel, hb]

namespace CmdDemo

def ctx : ScanCtx where
  symbol c := if c = '/' then some "/" else if c = '←' then some "←" else if c = '+' then some "+" else if c = '.' then some "." else none
  letter c := ('a' ≤ c && c ≤ 'z') || ('A' ≤ c && c ≤ 'Z')
  number c := '0' ≤ c && c ≤ '9'
  space c := c == ' ' || c == '\t'
  cmd := stdCommands

theorem std : StdScan ctx := ⟨rfl, by decide, rfl, rfl, by decide, by decide, by decide, by decide⟩

example : scanLine ctx "/t 1+2⋄X".toList = .ok [⟨.identifier, "T__"⟩, ⟨.symbol, "←"⟩, ⟨.identifier, "a→t"⟩, ⟨.number, "0"⟩, ⟨.diamond, "⋄"⟩,
    ⟨.number, "1"⟩, ⟨.symbol, "+"⟩, ⟨.number, "2"⟩, ⟨.diamond, "⋄"⟩, ⟨.identifier, "X"⟩, ⟨.diamond, "⋄"⟩, ⟨.identifier, "a→t"⟩, ⟨.identifier, "T__"⟩] := by decide
example : scanLine ctx "/l `/a.apl `pkg".toList = scanLine ctx "`pkg io→l `/a.apl".toList := by decide
example : scanLine ctx "/m / .".toList = .ok [⟨.string, "."⟩, ⟨.identifier, "io→mount"⟩, ⟨.string, "/"⟩] := by decide
-- commands in commands
example : scanLine ctx "/t/p X".toList = .ok (timeCmd [⟨.identifier, "a→p"⟩, ⟨.identifier, "X"⟩]) := by decide
-- a command that is not at the start of the line is none
example : scanLine ctx "1⋄/h".toList = .ok [⟨.number, "1"⟩, ⟨.diamond, "⋄"⟩, ⟨.symbol, "/"⟩, ⟨.identifier, "h"⟩] := by decide
example : TickWord ctx "/a.apl".toList := by
  intro c hc
  rintro (h | h)
  · revert c; decide
  · revert c; decide

end CmdDemo

end Iv

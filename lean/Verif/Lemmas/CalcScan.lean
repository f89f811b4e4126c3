import Verif.Lemmas.CalcRun
import Verif.Props.Commands
import Verif.Props.BigText
/-
C92: the text of the programs of the specification is scanned to their tokens.
-/
namespace Iv
variable {V O H : Type}

/-- The scanner knows the symbols of the specification; `k` are its classes of characters. -/
structure CalcScan (ctx : ScanCtx) (k : Calc.Chars) : Prop where
  letter : ctx.letter = k.letter
  number : ctx.number = k.number
  symbol : ∀ c ∈ Calc.symbols, ctx.symbol c = some (String.ofList [c])
  plain : ∀ c, (k.letter c = true ∨ c ∈ ['_', '⍺', '⍵', '(', ')', '{', '}', ':', '⋄', ' ']) → ctx.symbol c = none
  other : ∀ c ∈ '→' :: '∇' :: '⎕' :: '⍺' :: '⍵' :: '(' :: ')' :: '{' :: '}' :: ':' :: '⋄' :: ' ' :: Calc.symbols,
    k.letter c = false ∧ k.number c = false
  letters : ∀ c, k.letter c = true → ¬ Digit c ∧ c ∉ ['.', '¯', '"', '\'', '`']

/-- the tokens of programs -/
inductive GoodTok (k : Calc.Chars) : Token → Prop
  | num (n : Int) : GoodTok k (Calc.numTok n)
  | var (x) : k.VarName x → GoodTok k (Calc.ident x)
  | fn (x) : k.FnName x → GoodTok k (Calc.ident x)
  | sym (c) : c ∈ Calc.symbols → GoodTok k (Calc.sym c)
  | lp : GoodTok k tLP
  | rp : GoodTok k tRP
  | lc : GoodTok k tLC
  | rc : GoodTok k tRC
  | colon : GoodTok k tColon
  | dia : GoodTok k tDia

theorem prim_symbol (p : Calc.Prim) : p.char ∈ Calc.symbols := by cases p <;> decide

theorem good_op (k : Calc.Chars) (o : Calc.Op) : ∀ t ∈ o.toks, GoodTok k t := by
  intro t ht
  cases o with
  | plain => simp [Calc.Op.toks] at ht
  | reduce => simp [Calc.Op.toks] at ht; subst ht; exact .sym _ (by decide)
  | scan => simp [Calc.Op.toks] at ht; subst ht; exact .sym _ (by decide)
  | swap => simp [Calc.Op.toks] at ht; subst ht; exact .sym _ (by decide)
  | each => simp [Calc.Op.toks] at ht; subst ht; exact .sym _ (by decide)

mutual
theorem tm_good {k : Calc.Chars} : (t : Calc.Tm) → t.Uses k.VarName k.FnName → ∀ u ∈ t.toks, GoodTok k u
  | .num n ns, _ => by
    intro u hu
    rw [Calc.Tm.toks, List.mem_map] at hu
    obtain ⟨m, _, rfl⟩ := hu
    exact .num m
  | .var x, h => by
    intro u hu
    simp [Calc.Tm.toks] at hu
    subst hu
    exact .var x h
  | .mon f o r, h => by
    intro u hu
    rw [Calc.Tm.toks] at hu
    simp only [List.mem_append] at hu
    rcases hu with (hu | hu) | hu
    · exact fn_good f h.1 u hu
    · exact good_op k o u hu
    · exact tm_good r h.2 u hu
  | .dya l f o r, h => by
    intro u hu
    rw [Calc.Tm.toks] at hu
    simp only [List.mem_append] at hu
    rcases hu with ((hu | hu) | hu) | hu
    · split at hu
      · exact tm_good l h.1 u hu
      · simp only [List.mem_append, List.mem_cons, List.not_mem_nil, or_false] at hu
        rcases hu with (rfl | hu) | rfl
        · exact .lp
        · exact tm_good l h.1 u hu
        · exact .rp
    · exact fn_good f h.2.1 u hu
    · exact good_op k o u hu
    · exact tm_good r h.2.2 u hu

theorem fn_good {k : Calc.Chars} : (f : Calc.Fn) → f.Uses k.VarName k.FnName → ∀ u ∈ f.toks, GoodTok k u
  | .prim p, _ => by
    intro u hu
    simp [Calc.Fn.toks] at hu
    subst hu
    exact .sym _ (prim_symbol p)
  | .name x, h => by
    intro u hu
    simp [Calc.Fn.toks] at hu
    subst hu
    exact .fn x h
  | .lam b, h => by
    intro u hu
    rw [Calc.Fn.toks] at hu
    simp only [List.mem_append, List.mem_cons, List.not_mem_nil, or_false] at hu
    rcases hu with (rfl | hu) | rfl
    · exact .lc
    · exact body_good b h u hu
    · exact .rc

theorem body_good {k : Calc.Chars} : (b : Calc.Body) → b.Uses k.VarName k.FnName → ∀ u ∈ b.toks, GoodTok k u
  | .ret t, h => by rw [Calc.Body.toks]; exact tm_good t h
  | .set x t b, h => by
    intro u hu
    rw [Calc.Body.toks] at hu
    simp only [List.mem_append, List.mem_cons] at hu
    rcases hu with (rfl | rfl | hu) | rfl | hu
    · exact .var x h.1
    · exact .sym _ (by decide)
    · exact tm_good t h.2.2.1 u hu
    · exact .dia
    · exact body_good b h.2.2.2 u hu
  | .guard c t b, h => by
    intro u hu
    rw [Calc.Body.toks] at hu
    simp only [List.mem_append, List.mem_cons] at hu
    rcases hu with (hu | rfl | hu) | rfl | hu
    · exact tm_good c h.1 u hu
    · exact .colon
    · exact tm_good t h.2.1 u hu
    · exact .dia
    · exact body_good b h.2.2 u hu
end

theorem stmt_good {k : Calc.Chars} (s : Calc.Stmt) (h : s.Uses k.VarName k.FnName) : ∀ u ∈ s.toks, GoodTok k u := by
  intro u hu
  cases s with
  | shw t => exact tm_good t h u hu
  | set x t =>
    simp only [Calc.Stmt.toks, List.mem_cons] at hu
    rcases hu with rfl | rfl | hu
    · exact .var x h.1
    · exact .sym _ (by decide)
    · exact tm_good t h.2.2 u hu
  | fn f b =>
    rw [Calc.Stmt.toks] at hu
    simp only [List.mem_cons] at hu
    rcases hu with rfl | rfl | hu
    · exact .fn f h.1
    · exact .sym _ (by decide)
    · exact fn_good (.lam b) h.2 u hu

theorem prog_good {k : Calc.Chars} : (p : List Calc.Stmt) → (∀ s ∈ p, s.Uses k.VarName k.FnName) → ∀ u ∈ Calc.progToks p, GoodTok k u
  | [], _ => by intro u hu; simp [Calc.progToks] at hu
  | [s], h => stmt_good s (h s (by simp))
  | s :: t :: p, h => by
    intro u hu
    rw [Calc.progToks] at hu
    simp only [List.mem_append, List.mem_cons] at hu
    rcases hu with hu | rfl | hu
    · exact stmt_good s (h s (by simp)) u hu
    · exact .dia
    · exact prog_good (t :: p) (fun x hx => h x (by simp [hx])) u hu

/-! ### Lexemes -/

/-- characters that do not belong to numbers and names -/
def Outside (ctx : ScanCtx) (c : Char) : Prop := ¬ InNumber c ∧ ¬ InName ctx c ∧ c ≠ '→'

theorem symbol_plain {c : Char} (h : c ∈ Calc.symbols ∨ c ∈ ['(', ')', '{', '}', ':', '⋄', ' ']) :
    ¬ InNumber c ∧ c ≠ '→' ∧ c ≠ '_' ∧ c ∉ ['"', '\'', '`'] := by
  have : c ∈ Calc.symbols ++ ['(', ')', '{', '}', ':', '⋄', ' '] := by simpa using h
  unfold Calc.symbols at this
  simp only [List.cons_append, List.nil_append, List.mem_cons, List.not_mem_nil, or_false] at this
  unfold InNumber Digit
  rcases this with h | h | h | h | h | h | h | h | h | h | h | h | h | h | h | h | h | h | h | h | h | h | h | h | h | h | h | h | h <;> subst h <;> decide

theorem outside_of {ctx : ScanCtx} {k : Calc.Chars} (h : CalcScan ctx k) {c : Char} (hc : c ∈ Calc.symbols ∨ c ∈ ['(', ')', '{', '}', ':', '⋄', ' ']) :
    Outside ctx c := by
  obtain ⟨h1, h2, h3, _⟩ := symbol_plain hc
  refine ⟨h1, ?_, h2⟩
  have := h.other c (by
    simp only [List.mem_cons, List.not_mem_nil, or_false] at hc ⊢
    tauto)
  unfold InName
  rw [h.letter, h.number, this.1, this.2]
  simp [h3]

theorem noLit_of {c : Char} (h1 : ¬ InNumber c) (h2 : c ∉ ['"', '\'', '`']) (rest : List Char) : NoLiteral (c :: rest) := by
  refine ⟨fun d hd => ?_, ?_⟩
  · simp at hd; subst hd; exact h2
  · intro hb
    rcases hb with hb | hb | ⟨hb, _⟩
    · exact h1 (.inl hb)
    · exact h1 (by unfold InNumber; simp [hb])
    · exact h1 (by unfold InNumber; simp [hb])

theorem lex_sym {ctx : ScanCtx} {k : Calc.Chars} (h : CalcScan ctx k) {c : Char} (hc : c ∈ Calc.symbols) (rest : List Char) :
    Lexeme ctx [c] (Calc.sym c) rest := by
  obtain ⟨h1, _, _, h4⟩ := symbol_plain (.inl hc)
  exact .symbol c _ rest (noLit_of h1 h4 rest) (h.symbol c hc)

theorem lex_punct {ctx : ScanCtx} {k : Calc.Chars} (h : CalcScan ctx k) {c : Char} {t : TT} (hc : c ∈ ['(', ')', '{', '}', ':', '⋄'])
    (ht : (c, t) ∈ punctuation) (rest : List Char) : Lexeme ctx [c] ⟨t, String.ofList [c]⟩ rest := by
  obtain ⟨h1, _, h3, h4⟩ := symbol_plain (c := c) (.inr (by simp only [List.mem_cons, List.not_mem_nil, or_false] at hc ⊢; tauto))
  refine .punct c t rest (noLit_of h1 h4 rest) (h.plain c (.inr (by simp only [List.mem_cons, List.not_mem_nil, or_false] at hc ⊢; tauto))) ?_ ht
  have := h.other c (by simp only [List.mem_cons, List.not_mem_nil, or_false] at hc ⊢; tauto)
  unfold FirstInName
  rw [h.letter, this.1]
  simp only [List.mem_cons, List.not_mem_nil, or_false] at hc ⊢
  rcases hc with h | h | h | h | h | h <;> subst h <;> decide

theorem showInt_text (n : Int) : Calc.showInt n = intText 0 n := ((C71_text 0 n).1 (by decide) (by decide)).symm

theorem lex_num {ctx : ScanCtx} (n : Int) (rest : List Char) (hr : ∀ c, rest.head? = some c → ¬ InNumber c) :
    Lexeme ctx (Calc.showInt n) (Calc.numTok n) rest := by
  obtain ⟨h1, h2, h3⟩ := intText_number 0 (by decide) n
  rw [← showInt_text] at h1 h2 h3
  refine .number _ rest ?_ h2 hr
  cases he : Calc.showInt n with
  | nil => exact absurd he h1
  | cons c cs =>
    rw [he] at h3
    rcases h3 with h3 | h3 | ⟨h3, d, hd, hd'⟩
    · exact .inl h3
    · exact .inr (.inl h3)
    · refine .inr (.inr ⟨h3, d, ?_, hd'⟩)
      cases cs with
      | nil => simp at hd
      | cons => simpa using hd

theorem lex_word {ctx : ScanCtx} {k : Calc.Chars} (h : CalcScan ctx k) {c : Char} {cs : List Char} (hn : k.Name c cs) (rest : List Char)
    (hr : ∀ c, rest.head? = some c → ¬ InName ctx c ∧ c ≠ '→') :
    Lexeme ctx (c :: cs) (Calc.ident (String.ofList (c :: cs))) rest := by
  have hc : ¬ InNumber c ∨ k.letter c = true := by
    rcases hn.1 with h1 | h1
    · exact .inr h1
    · subst h1; left; unfold InNumber Digit; decide
  have hl : NoLiteral (c :: cs ++ rest) := by
    rcases hn.1 with h1 | h1
    · obtain ⟨h2, h3⟩ := h.letters c h1
      simp only [List.mem_cons, List.not_mem_nil, or_false, not_or] at h3
      refine ⟨fun d hd => ?_, ?_⟩
      · simp at hd; subst hd; simp [h3]
      · rintro (hb | hb | ⟨hb, _⟩)
        · exact h2 hb
        · exact h3.2.1 hb
        · exact h3.1 hb
    · subst h1
      exact noLit_of (by unfold InNumber Digit; decide) (by decide) _
  refine .name c cs rest hl (h.plain c ?_) ?_ ?_ hr
  · rcases hn.1 with h1 | h1
    · exact .inl h1
    · exact .inr (by subst h1; decide)
  · rcases hn.1 with h1 | h1
    · exact .inr (by rw [h.letter]; exact h1)
    · exact .inl (by subst h1; decide)
  · intro d hd
    unfold InName
    rw [h.letter, h.number]
    rcases hn.2 d hd with h1 | h1 | h1
    · exact .inr (.inr h1)
    · exact .inl h1
    · exact .inr (.inl h1)

theorem lex_arg {ctx : ScanCtx} {k : Calc.Chars} (h : CalcScan ctx k) {c : Char} (hc : c = '⍺' ∨ c = '⍵') (rest : List Char)
    (hr : ∀ c, rest.head? = some c → ¬ InName ctx c ∧ c ≠ '→') : Lexeme ctx [c] (Calc.ident (String.ofList [c])) rest := by
  have h1 : ¬ InNumber c ∧ c ∉ ['"', '\'', '`'] := by
    rcases hc with rfl | rfl <;> (unfold InNumber Digit; decide)
  refine .name c [] rest (noLit_of h1.1 h1.2 _) (h.plain c (.inr ?_)) (.inl ?_) (by simp) hr
  · rcases hc with rfl | rfl <;> decide
  · rcases hc with rfl | rfl <;> decide

/-- a token of a program, followed by something else -/
theorem lex_good {ctx : ScanCtx} {k : Calc.Chars} (h : CalcScan ctx k) {t : Token} (ht : GoodTok k t) (rest : List Char)
    (hr : Calc.wordy t = true → ∀ c, rest.head? = some c → Outside ctx c) : Lexeme ctx t.s.toList t rest := by
  have hn : Calc.wordy t = true → ∀ c, rest.head? = some c → ¬ InName ctx c ∧ c ≠ '→' := fun hw c hc => (hr hw c hc).2
  cases ht with
  | num n =>
    have := lex_num (ctx := ctx) n rest (fun c hc => (hr rfl c hc).1)
    simpa [Calc.numTok] using this
  | var x hx =>
    rcases hx with rfl | rfl | ⟨c, cs, rfl, h1, _⟩
    · exact lex_arg h (.inl rfl) rest (hn rfl)
    · exact lex_arg h (.inr rfl) rest (hn rfl)
    · have := lex_word h h1 rest (hn rfl)
      simpa [Calc.ident] using this
  | fn x hx =>
    obtain ⟨c, cs, rfl, h1, _⟩ := hx
    have := lex_word h h1 rest (hn rfl)
    simpa [Calc.ident] using this
  | sym c hc =>
    have := lex_sym h hc rest
    simpa [Calc.sym] using this
  | lp => exact lex_punct h (by decide) (by decide) rest
  | rp => exact lex_punct h (by decide) (by decide) rest
  | lc => exact lex_punct h (by decide) (by decide) rest
  | rc => exact lex_punct h (by decide) (by decide) rest
  | colon => exact lex_punct h (by decide) (by decide) rest
  | dia => exact lex_punct h (by decide) (by decide) rest

/-- the first character of a token that is no number and no name -/
theorem good_head {k : Calc.Chars} {t : Token} (ht : GoodTok k t) (hw : Calc.wordy t = false) :
    ∃ c, t.s.toList = [c] ∧ (c ∈ Calc.symbols ∨ c ∈ ['(', ')', '{', '}', ':', '⋄', ' ']) := by
  cases ht with
  | num n => exact absurd hw (by simp [Calc.wordy, Calc.numTok])
  | var x => exact absurd hw (by simp [Calc.wordy, Calc.ident])
  | fn x => exact absurd hw (by simp [Calc.wordy, Calc.ident])
  | sym c hc => exact ⟨c, by simp [Calc.sym], .inl hc⟩
  | lp => exact ⟨'(', by decide, by decide⟩
  | rp => exact ⟨')', by decide, by decide⟩
  | lc => exact ⟨'{', by decide, by decide⟩
  | rc => exact ⟨'}', by decide, by decide⟩
  | colon => exact ⟨':', by decide, by decide⟩
  | dia => exact ⟨'⋄', by decide, by decide⟩

theorem source_head (u : Token) (r : List Token) (c : Char) (h : u.s.toList = [c]) : (Calc.source (u :: r)).head? = some c := by
  cases r <;> simp [Calc.source, h]

theorem lex_source {ctx : ScanCtx} {k : Calc.Chars} (h : CalcScan ctx k) : (ts : List Token) → (∀ t ∈ ts, GoodTok k t) →
    Lexes ctx (Calc.source ts) ts
  | [], _ => .done
  | [t], hg => by
    have := Lexes.token _ t [] [] (lex_good h (hg t (by simp)) [] (fun _ c hc => by cases hc)) .done
    simpa [Calc.source] using this
  | t :: u :: r, hg => by
    have ih := lex_source h (u :: r) (fun x hx => hg x (by simp only [List.mem_cons] at hx ⊢; tauto))
    have ht := hg t (by simp)
    rw [Calc.source]
    cases hw : Calc.wordy t && Calc.wordy u with
    | true =>
      rw [if_pos rfl, List.append_assoc]
      refine .token _ t _ _ (lex_good h ht _ (fun _ c hc => ?_)) ?_
      · simp at hc; subst hc
        exact outside_of h (.inr (by decide))
      · refine .blank ' ' _ _ (by decide) (h.plain ' ' (.inr (by decide))) ?_ ih
        unfold FirstInName
        rw [h.letter, (h.other ' ' (by decide)).1]
        decide
    | false =>
      rw [if_neg (by simp), List.append_nil]
      refine .token _ t _ _ (lex_good h ht _ (fun hwt c hc => ?_)) ih
      rw [hwt, Bool.true_and] at hw
      obtain ⟨d, h1, h2⟩ := good_head (hg u (by simp)) hw
      rw [source_head u r d h1] at hc
      simp at hc; subst hc
      exact outside_of h h2

/-- the first token of a program is not the sign of a command -/
theorem first_tok (p : List Calc.Stmt) (t : Token) (ts : List Token) (h : Calc.progToks p = t :: ts) (hs : t.t = .symbol) : t.s ∉ ["/", "\\"] := by
  have hf : ∀ (f : Calc.Fn) (r : List Token), f.toks ++ r = t :: ts → t.s ∉ ["/", "\\"] := by
    intro f r he
    cases f with
    | prim p =>
      simp [Calc.Fn.toks] at he
      obtain ⟨rfl, _⟩ := he
      cases p <;> decide
    | name x => simp [Calc.Fn.toks] at he; obtain ⟨rfl, _⟩ := he; simp [Calc.ident] at hs
    | lam b => simp [Calc.Fn.toks] at he; obtain ⟨rfl, _⟩ := he; simp at hs
  have hst : ∀ (s : Calc.Stmt) (r : List Token), s.toks ++ r = t :: ts → t.s ∉ ["/", "\\"] := by
    intro s r he
    cases s with
    | shw tm =>
      rw [Calc.Stmt.toks] at he
      cases tm with
      | num n ns => simp [Calc.Tm.toks] at he; obtain ⟨rfl, _⟩ := he; simp [Calc.numTok] at hs
      | var x => simp [Calc.Tm.toks] at he; obtain ⟨rfl, _⟩ := he; simp [Calc.ident] at hs
      | mon f o r' => rw [Calc.Tm.toks, List.append_assoc, List.append_assoc] at he; exact hf f _ he
      | dya l f o r' =>
        rw [Calc.Tm.toks] at he
        cases l with
        | num n ns => simp [Calc.Tm.toks, Calc.Tm.atomic] at he; obtain ⟨rfl, _⟩ := he; simp [Calc.numTok] at hs
        | var x => simp [Calc.Tm.toks, Calc.Tm.atomic] at he; obtain ⟨rfl, _⟩ := he; simp [Calc.ident] at hs
        | mon f o r' => simp [Calc.Tm.atomic] at he; obtain ⟨rfl, _⟩ := he; simp at hs
        | dya l f o r' => simp [Calc.Tm.atomic] at he; obtain ⟨rfl, _⟩ := he; simp at hs
    | set x tm => simp [Calc.Stmt.toks] at he; obtain ⟨rfl, _⟩ := he; simp [Calc.ident] at hs
    | fn f b => simp [Calc.Stmt.toks] at he; obtain ⟨rfl, _⟩ := he; simp [Calc.ident] at hs
  match p, h with
  | [s], h => exact hst s [] (by rw [List.append_nil]; exact h)
  | s :: u :: p, h => exact hst s _ h

/-- a line with the tokens of a program is scanned to them -/
theorem scan_prog {ctx : ScanCtx} (p : List Calc.Stmt) (line : List Char) (h : Lexes ctx line (Calc.progToks p)) :
    scanLine ctx line = .ok (Calc.progToks p) :=
  (C49_scan ctx line _).2 ⟨_, h, .plain _ (fun a b r e h1 h2 => absurd h2 (first_tok p a _ e h1))⟩

end Iv

import Verif.Props.Package
import Verif.Props.InterpDemo
import Verif.Props.Parse
/-
C78: a file is evaluated block by block, in order, up to the first failure.
-/
namespace Iv
variable {D H : Type}

/- ## Specification -/

/-- The evaluation of the lines of a file ends with outcome `r` in the machine `j`. -/
def FileDone (w : World D H) (lines : List (List Char)) (i : Machine D H) (r : Except Fail Unit) (j : Machine D H) : Prop :=
  ∃ n, evalFile w n lines .reset true i = some (r, j)

/-- The evaluation of a program (or the load of a file) ends with outcome `r` in the machine `j`. -/
def ProgDone (w : World D H) (p : List (Option (Expr D))) (i : Machine D H) (r : Except Fail Unit) (j : Machine D H) : Prop :=
  ∃ n, evalOrLoad w n (fun lines => evalFile w n lines .reset true) p i = some (r, j)

/-- Lines that are a block with the tokens `all`: the first time that all braces are closed after a line with tokens is at the end. -/
def IsBlock (ctx : ScanCtx) (lines : List (List Char)) (all : List Token) : Prop :=
  ∃ toks, ScanAll ctx lines toks ∧ Joined toks all ∧ NoExtraBrace all ∧ all ≠ [] ∧ braceLevel all = 0 ∧
    ∀ t1 t2 a, toks = t1 ++ t2 → t2 ≠ [] → Joined t1 a → a = [] ∨ 0 < braceLevel a

/- ## Proof -/

/-- more fuel gives the same outcome -/
def MLe (m m' : MM D H) : Prop := ∀ i x, m i = some x → m' i = some x

theorem MLe.refl (m : MM D H) : MLe m m := fun _ _ h => h

theorem mle_andThen {m m' k k' : MM D H} (h1 : MLe m m') (h2 : MLe k k') : MLe (andThen m k) (andThen m' k') := by
  intro i x h
  rw [andThen] at h ⊢
  cases hm : m i with
  | none => rw [hm] at h; cases h
  | some y =>
    rw [hm] at h
    rw [h1 i y hm]
    obtain ⟨r, j⟩ := y
    cases r with
    | error e => exact h
    | ok u => exact h2 _ _ h

theorem mle_thenWrite (w : World D H) {m m' : MM D H} (h1 : MLe m m') : MLe (thenWrite w m) (thenWrite w m') := by
  intro i x h
  rw [thenWrite] at h ⊢
  cases hm : m i with
  | none => rw [hm] at h; cases h
  | some y => rw [hm] at h; rw [h1 i y hm]; exact h

theorem mle_loadPkg (name : String) {m m' : MM D H} (h1 : MLe m m') : MLe (loadPkg name m) (loadPkg name m') := by
  intro i x h
  rw [loadPkg] at h ⊢
  generalize (⟨{ i.st with envs := i.st.envs ++ [⟨none, []⟩], cur := i.st.envs.length }, i.pkgs⟩ : Machine D H) = f at h ⊢
  cases hm : m f with
  | none => rw [hm] at h; cases h
  | some y => rw [hm] at h; rw [h1 f y hm]; exact h

theorem mle_evalMachine (w : World D H) (n : Nat) (p : List (Option (Expr D))) : MLe (evalMachine w n p) (evalMachine w (n + 1) p) := by
  intro i x h
  rw [evalMachine] at h ⊢
  cases hm : evalWrite (i.sys w) n p i.st with
  | none => rw [hm] at h; cases h
  | some y =>
    rw [hm] at h
    have : evalWrite (i.sys w) (n + 1) p i.st = some y := mono_evalWrite (i.sys w) p n (n + 1) (Nat.le_succ n) i.st y hm
    rw [this]
    exact h

theorem mle_evalOrLoad (w : World D H) (n : Nat) (hf : ∀ lines, MLe (evalFile w n lines .reset true) (evalFile w (n + 1) lines .reset true))
    (p : List (Option (Expr D))) :
    MLe (evalOrLoad w n (fun lines => evalFile w n lines .reset true) p) (evalOrLoad w (n + 1) (fun lines => evalFile w (n + 1) lines .reset true) p) := by
  rw [evalOrLoad, evalOrLoad]
  cases w.load p with
  | none => exact mle_evalMachine w n p
  | some x =>
    obtain ⟨name, file⟩ := x
    simp only
    cases w.files file with
    | none => exact MLe.refl _
    | some lines =>
      cases name with
      | none => exact mle_thenWrite w (hf lines)
      | some pkg => exact mle_thenWrite w (mle_loadPkg pkg (hf lines))

theorem mle_evalFile (w : World D H) (n : Nat) (lines : List (List Char)) (b : LineBuffer) (ok : Bool) :
    MLe (evalFile w n lines b ok) (evalFile w (n + 1) lines b ok) := by
  induction n generalizing lines b ok with
  | zero => intro i x h; cases h
  | succ n ih =>
    cases lines with
    | nil => intro i x h; exact h
    | cons l ls =>
      rw [evalFile, evalFile]
      cases ha : b.add w.ctx l with
      | mk r b' =>
        cases r with
        | error e => exact MLe.refl _
        | ok r =>
          cases r with
          | false => exact ih ls b' false
          | true =>
            simp only
            cases hp : b'.parse w.pctx with
            | mk q b'' =>
              cases q with
              | error e => exact MLe.refl _
              | ok p => exact mle_andThen (mle_evalOrLoad w n (fun lines => ih lines .reset true) p) (ih ls b'' true)

theorem evalFile_more (w : World D H) {n m : Nat} (h : n ≤ m) (lines : List (List Char)) (b : LineBuffer) (ok : Bool) :
    MLe (evalFile w n lines b ok) (evalFile w m lines b ok) := by
  induction h with
  | refl => exact MLe.refl _
  | step _ ih => exact fun i x hx => mle_evalFile w _ lines b ok i x (ih i x hx)

theorem evalOrLoad_more (w : World D H) {n m : Nat} (h : n ≤ m) (p : List (Option (Expr D))) :
    MLe (evalOrLoad w n (fun lines => evalFile w n lines .reset true) p) (evalOrLoad w m (fun lines => evalFile w m lines .reset true) p) := by
  induction h with
  | refl => exact MLe.refl _
  | step _ ih => exact fun i x hx => mle_evalOrLoad w _ (fun lines => mle_evalFile w _ lines .reset true) p i x (ih i x hx)

theorem block_add (ctx : ScanCtx) (pctx : PCtx D) (ls : List (List Token)) (b : LineBuffer) (h : History ctx pctx ls b) (l : List Char) (ts : List Token)
    (hs : scanLine ctx l = .ok ts) (all : List Token) (toks : List (List Token)) (hj : Joined (ls ++ ts :: toks) all) (hn : NoExtraBrace all) :
    ∃ r b', b.add ctx l = (.ok r, b') := by
  cases ha : b.add ctx l with
  | mk r b' =>
    cases r with
    | ok r => exact ⟨r, b', rfl⟩
    | error e =>
      exfalso
      rcases (C50_error ctx pctx ls b h l).1.1 ⟨e, b', ha⟩ with ⟨e', he⟩ | ⟨ts', p, q, he, e2, hp⟩
      · rw [hs] at he; cases he
      · rw [hs] at he; cases he
        have hne : ts ≠ [] := by
          rintro rfl
          rw [nil_pre e2, List.append_nil, ← (C50_state ctx pctx ls b h).2.1] at hp
          have := (C50_state ctx pctx ls b h).2.2 b.tokens [] (by simp)
          rw [← (C50_state ctx pctx ls b h).2.1] at this
          omega
        obtain ⟨acc, r, h1, h2⟩ := joined_prefix _ all hj (ls ++ [ts]) toks (by simp)
        have h3 := joined_separator ls b (C50_state ctx pctx ls b h).1 ts hne
        have h4 := joined_unique _ _ _ h1 h3
        have := hn (b.tokens ++ separator b ++ p) (q ++ r) (by rw [h2, h4, e2]; simp)
        rw [braceLevel_append, braceLevel_append, braceLevel_separator] at this
        rw [braceLevel_append] at hp
        omega

theorem joined_last_empty (ls : List (List Token)) (all : List Token) (h : Joined (ls ++ [[]]) all) : Joined ls all := by
  generalize hx : ls ++ [[]] = x at h
  cases h with
  | nil => simp at hx
  | skip ls' acc h => rw [List.append_cancel_right hx]; exact h
  | first ls' l h hl => exact absurd (List.cons.inj (List.append_inj_right' hx rfl)).1.symm hl
  | brace ls' acc b l h hb hl => exact absurd (List.cons.inj (List.append_inj_right' hx rfl)).1.symm hl
  | diamond ls' acc b l h hb hl => exact absurd (List.cons.inj (List.append_inj_right' hx rfl)).1.symm hl

/-- the lines of a block, from a buffer in the middle of it: at the end the tokens are parsed -/
theorem evalFile_block (w : World D H) (ls : List (List Token)) (b : LineBuffer) (h : History w.ctx w.pctx ls b) (lines : List (List Char)) (toks : List (List Token))
    (hne : lines ≠ []) (hs : ScanAll w.ctx lines toks) (all : List Token) (hj : Joined (ls ++ toks) all) (hn : NoExtraBrace all) (hall : all ≠ [])
    (h0 : braceLevel all = 0)
    (hpre : ∀ t1 t2 a, ls ++ toks = t1 ++ t2 → t2 ≠ [] → Joined t1 a → a = [] ∨ 0 < braceLevel a) (n : Nat) (rest : List (List Char)) (ok : Bool) :
    evalFile w (n + lines.length) (lines ++ rest) b ok =
      match parseProgram w.pctx all with
      | .error e => fun i => some (.error e, i)
      | .ok p => andThen (evalOrLoad w n (fun lines => evalFile w n lines .reset true) p) (evalFile w n rest .reset true) := by
  induction hs generalizing ls b ok with
  | nil => exact absurd rfl hne
  | @cons l ts lines toks hs hr ih =>
    obtain ⟨r, b', ha⟩ := block_add w.ctx w.pctx ls b h l ts hs all toks hj hn
    have hh := History.added ls b l ts r b' h hs ha
    have hst := C50_state w.ctx w.pctx _ _ hh
    have hc := C50_complete w.ctx w.pctx ls b h l ts hs r b' ha
    rw [show n + (l :: lines).length = (n + lines.length) + 1 from rfl, List.cons_append, evalFile, ha]
    cases hr with
    | nil =>
      have e := joined_unique _ _ _ hj hst.1
      have hts : ts ≠ [] := by
        rintro rfl
        have hj' := joined_last_empty ls all hj
        rcases hpre ls [[]] all rfl (by simp) hj' with h' | h'
        · exact hall h'
        · omega
      have hrt := (hc.2 hts).2 (by rw [← e]; exact h0)
      subst hrt
      simp only [LineBuffer.parse, ← e, List.length_nil, Nat.add_zero, List.nil_append]
      cases parseProgram w.pctx all with
      | error e => rfl
      | ok p => rfl
    | @cons l' ts' lines toks hs' hr' =>
      have hrf : r = false := by
        by_cases hts : ts = []
        · exact (hc.1 hts).1
        · cases r with
          | false => rfl
          | true =>
            exfalso
            have h1 := (hc.2 hts).1 rfl
            rcases hpre (ls ++ [ts]) (ts' :: toks) b'.tokens (by simp) (by simp) hst.1 with h' | h'
            · have h3 := hst.1
              rw [h'] at h3
              have := joined_unique _ _ _ h3 (joined_separator ls b (C50_state w.ctx w.pctx ls b h).1 ts hts)
              exact hts (List.append_eq_nil_iff.1 this.symm).2
            · omega
      subst hrf
      exact ih _ b' hh (by simp) (by simpa using hj) (by simpa using hpre) false

/-- A file that begins with a block: the block is parsed and evaluated, then the rest of the file is evaluated; if the block fails nothing of
the rest is. -/
theorem C78_block (w : World D H) (block rest : List (List Char)) (all : List Token) (hb : IsBlock w.ctx block all) (p : List (Option (Expr D)))
    (hp : parseProgram w.pctx all = .ok p) (i : Machine D H) (r : Except Fail Unit) (k : Machine D H) :
    FileDone w (block ++ rest) i r k ↔
      (∃ j, ProgDone w p i (.ok ()) j ∧ FileDone w rest j r k) ∨ (∃ e, r = .error e ∧ ProgDone w p i (.error e) k) := by
  obtain ⟨toks, h1, h2, h3, h4, h5, h6⟩ := hb
  have hne : block ≠ [] := by
    rintro rfl
    cases h1
    exact h4 (joined_unique _ _ _ h2 .nil)
  have key : ∀ n, evalFile w (n + block.length) (block ++ rest) .reset true =
      andThen (evalOrLoad w n (fun lines => evalFile w n lines .reset true) p) (evalFile w n rest .reset true) := by
    intro n
    rw [evalFile_block w [] .reset .new block toks hne h1 all (by simpa using h2) h3 h4 h5 (by simpa using h6) n rest true, hp]
  constructor
  · rintro ⟨n, hn⟩
    have hn := evalFile_more w (Nat.le_add_right n block.length) _ _ _ i _ hn
    rw [key, andThen] at hn
    cases hm : evalOrLoad w n (fun lines => evalFile w n lines .reset true) p i with
    | none => rw [hm] at hn; cases hn
    | some y =>
      obtain ⟨r', j⟩ := y
      rw [hm] at hn
      cases r' with
      | error e => cases hn; exact .inr ⟨e, rfl, n, hm⟩
      | ok u => exact .inl ⟨j, ⟨n, hm⟩, n, hn⟩
  · rintro (⟨j, ⟨n1, hn1⟩, n2, hn2⟩ | ⟨e, rfl, n, hn⟩)
    · refine ⟨max n1 n2 + block.length, ?_⟩
      rw [key, andThen, evalOrLoad_more w (Nat.le_max_left n1 n2) p i _ hn1]
      exact evalFile_more w (Nat.le_max_right n1 n2) _ _ _ j _ hn2
    · refine ⟨n + block.length, ?_⟩
      rw [key, andThen, hn]

/-- A block that cannot be parsed ends the evaluation, and nothing has been evaluated. -/
theorem C78_unparsed (w : World D H) (block rest : List (List Char)) (all : List Token) (hb : IsBlock w.ctx block all) (e : Fail)
    (hp : parseProgram w.pctx all = .error e) (i : Machine D H) (r : Except Fail Unit) (k : Machine D H) :
    FileDone w (block ++ rest) i r k ↔ r = .error e ∧ k = i := by
  obtain ⟨toks, h1, h2, h3, h4, h5, h6⟩ := hb
  have hne : block ≠ [] := by
    rintro rfl
    cases h1
    exact h4 (joined_unique _ _ _ h2 .nil)
  have key : ∀ n, evalFile w (n + block.length) (block ++ rest) .reset true = fun i => some (.error e, i) := by
    intro n
    rw [evalFile_block w [] .reset .new block toks hne h1 all (by simpa using h2) h3 h4 h5 (by simpa using h6) n rest true, hp]
  constructor
  · rintro ⟨n, hn⟩
    have hn := evalFile_more w (Nat.le_add_right n block.length) _ _ _ i _ hn
    rw [key] at hn
    cases hn
    exact ⟨rfl, rfl⟩
  · rintro ⟨rfl, rfl⟩
    exact ⟨0 + block.length, by rw [key]⟩

/-- A file ends successfully after its last block: blank lines and comments at the end do nothing. -/
theorem C78_end (w : World D H) (lines : List (List Char)) (hl : ∀ l ∈ lines, scanLine w.ctx l = .ok []) (i : Machine D H) (r : Except Fail Unit)
    (k : Machine D H) : FileDone w lines i r k ↔ r = .ok () ∧ k = i := by
  have key : ∀ ok n, evalFile w (n + 1 + lines.length) lines .reset ok = fun i => some (.ok (), i) := by
    intro ok n
    induction lines generalizing ok with
    | nil =>
      funext i
      rw [List.length_nil, Nat.add_zero, evalFile]
      exact if_neg (by simp [LineBuffer.reset])
    | cons l lines ih =>
      have hadd : LineBuffer.reset.add w.ctx l = (.ok false, .reset) := by rw [LineBuffer.add, hl l List.mem_cons_self]
      rw [show n + 1 + (l :: lines).length = (n + 1 + lines.length) + 1 from rfl, evalFile, hadd]
      exact ih (fun l h => hl l (List.mem_cons_of_mem _ h)) false
  constructor
  · rintro ⟨n, hn⟩
    have hn := evalFile_more w (by omega : n ≤ n + 1 + lines.length) _ _ _ i _ hn
    rw [key] at hn
    cases hn
    exact ⟨rfl, rfl⟩
  · rintro ⟨rfl, rfl⟩
    exact ⟨0 + 1 + lines.length, by rw [key]⟩

/-- A line in front of which no block is open, and that cannot be scanned or closes too many braces, ends the evaluation, and nothing of it has
been evaluated. -/
theorem C78_bad_line (w : World D H) (line : List Char) (rest : List (List Char))
    (hb : (∃ e, scanLine w.ctx line = .error e) ∨ ∃ ts p q, scanLine w.ctx line = .ok ts ∧ ts = p ++ q ∧ braceLevel p < 0)
    (i : Machine D H) (r : Except Fail Unit) (k : Machine D H) (h : FileDone w (line :: rest) i r k) : (∃ e, r = .error e) ∧ k = i := by
  obtain ⟨n, hn⟩ := h
  cases n with
  | zero => cases hn
  | succ n =>
    obtain ⟨e, b', ha⟩ := (C50_error w.ctx w.pctx [] .reset .new line).1.2 hb
    rw [evalFile, ha] at hn
    cases hn
    exact ⟨⟨e, rfl⟩, rfl⟩

/-- A file that ends inside of a block fails, and nothing of the block has been evaluated. -/
theorem C78_unterminated (w : World D H) (lines : List (List Char)) (toks : List (List Token)) (hs : ScanAll w.ctx lines toks) (all : List Token)
    (hj : Joined toks all) (hn : NoExtraBrace all) (hlev : 0 < braceLevel all)
    (hpre : ∀ t1 t2 a, toks = t1 ++ t2 → Joined t1 a → a = [] ∨ 0 < braceLevel a) (i : Machine D H) (r : Except Fail Unit) (k : Machine D H) :
    FileDone w lines i r k ↔ r = .error .err ∧ k = i := by
  have key : ∀ (lines : List (List Char)) (toks ls : List (List Token)) (b : LineBuffer), History w.ctx w.pctx ls b → ScanAll w.ctx lines toks → Joined (ls ++ toks) all →
      (∀ t1 t2 a, ls ++ toks = t1 ++ t2 → Joined t1 a → a = [] ∨ 0 < braceLevel a) → ∀ (ok : Bool), (lines = [] → ok = false) → ∀ n,
      evalFile w (n + 1 + lines.length) lines b ok = fun i => some (.error .err, i) := by
    intro lines toks ls b h hs
    induction hs generalizing ls b with
    | nil =>
      intro hj hpre ok hok n
      have e := joined_unique _ _ _ (by simpa using hj) (C50_state w.ctx w.pctx ls b h).1
      funext i
      rw [List.length_nil, Nat.add_zero, evalFile]
      refine if_pos ⟨hok rfl, ?_⟩
      rw [← e]
      refine List.length_pos_iff.2 ?_
      rintro rfl
      simp [braceLevel] at hlev
    | @cons l ts lines toks hs hr ih =>
      intro hj hpre ok _ n
      obtain ⟨r, b', ha⟩ := block_add w.ctx w.pctx ls b h l ts hs all toks hj hn
      have hh := History.added ls b l ts r b' h hs ha
      have hst := C50_state w.ctx w.pctx _ _ hh
      have hc := C50_complete w.ctx w.pctx ls b h l ts hs r b' ha
      have hrf : r = false := by
        by_cases hts : ts = []
        · exact (hc.1 hts).1
        · cases r with
          | false => rfl
          | true =>
            exfalso
            have h1 := (hc.2 hts).1 rfl
            rcases hpre (ls ++ [ts]) toks b'.tokens (by simp) hst.1 with h' | h'
            · have h3 := hst.1
              rw [h'] at h3
              have := joined_unique _ _ _ h3 (joined_separator ls b (C50_state w.ctx w.pctx ls b h).1 ts hts)
              exact hts (List.append_eq_nil_iff.1 this.symm).2
            · omega
      subst hrf
      rw [show n + 1 + (l :: lines).length = (n + 1 + lines.length) + 1 from rfl, evalFile, ha]
      exact ih _ b' hh (by simpa using hj) (by simpa using hpre) false (fun _ => rfl) n
  have hne : lines ≠ [] := by
    rintro rfl
    cases hs
    rw [joined_unique _ _ _ hj .nil] at hlev
    simp [braceLevel] at hlev
  have key' := key lines toks [] .reset .new hs (by simpa using hj) (by simpa using hpre) true (fun h => absurd h hne)
  constructor
  · rintro ⟨n, hn⟩
    have hn := evalFile_more w (by omega : n ≤ n + 1 + lines.length) _ _ _ i _ hn
    rw [key'] at hn
    cases hn
    exact ⟨rfl, rfl⟩
  · rintro ⟨rfl, rfl⟩
    exact ⟨0 + 1 + lines.length, by rw [key']⟩

/-- C77: a package whose name is not in lower case has no variables. -/
theorem C77_lower_case (w : World D H) (pkgs : List (String × Nat)) (envs : List (Env D)) (nm var : List Char) (hn : '→' ∉ nm) (hl : w.lower nm = false) :
    packageVar w pkgs envs (String.ofList (nm ++ '→' :: var)) = none := by
  have hb : beforeArrow (nm ++ '→' :: var) = nm := by
    clear hl
    induction nm with
    | nil => rfl
    | cons c nm ih =>
      rw [List.cons_append, beforeArrow, if_neg (fun h => hn (by simp [h])), ih (fun h => hn (List.mem_cons_of_mem _ h))]
  unfold packageVar
  rw [String.toList_ofList, hb, hl]
  cases afterArrow (nm ++ '→' :: var) <;> rfl

/-- C77: loading a file that does not exist is an error and changes nothing. -/
theorem C77_missing_file (w : World D H) (i : Machine D H) (n : Nat) (text : List Char) (ts : List Token) (p : List (Option (Expr D))) (nm : Option String)
    (file : String) (h1 : scanLine w.ctx text = .ok ts) (h2 : parseProgram w.pctx ts = .ok p) (h3 : w.load p = some (nm, file)) (h4 : w.files file = none) :
    evalLine w n text i = some (.error .err, i) := by
  unfold evalLine
  simp only [h1, h2, evalOrLoad, h3, h4]

/-- C78: a program that panics ends with an error; the interpreter goes on with the state that it has reached. -/
theorem C78_no_panic (w : World D H) (i : Machine D H) (n : Nat) (p : List (Option (Expr D))) (r : Except Fail Unit) (j : Machine D H)
    (h : evalMachine w n p i = some (r, j)) :
    r ≠ .error .panic ∧ ∃ r', evalWrite (i.sys w) n p i.st = some (r', j.st) ∧ j.pkgs = i.pkgs ∧ (r = .ok () ↔ r' = .ok ()) := by
  unfold evalMachine at h
  cases he : evalWrite (i.sys w) n p i.st with
  | none => rw [he] at h; cases h
  | some x =>
    obtain ⟨r', s⟩ := x
    rw [he] at h
    cases h
    cases r' with
    | ok a => exact ⟨by simp [recovered], _, rfl, rfl, by simp [recovered]⟩
    | error e => exact ⟨by simp [recovered], _, rfl, rfl, by simp [recovered]⟩

namespace PkgDemo
open Demo

/-- a world with the numbers and names of the demos; `l a b` is the load of the file b as package a, and there are four files -/
def world : World Int Unit where
  sys := Demo.sys
  ctx :=
    { symbol := fun c => if c = '←' then some "←" else if c = '-' then some "-" else none
      letter := Char.isAlpha
      number := Char.isDigit
      space := fun c => c == ' '
      cmd := fun _ => none }
  pctx :=
    { prim := fun s => s = "-"
      op := fun s => if s = "←" then some false else none
      varname := fun s => match (afterArrow s.toList).getD s.toList with
        | c :: _ => if c.isUpper || c = '⎕' then some false else some true
        | [] => none
      number := fun s => if s = "0" then some 0 else if s = "1" then some 1 else if s = "2" then some 2 else none
      str := fun _ => 0
      empty := -1 }
  lower cs := cs.all Char.isLower
  load p := match p with
    | [some (.var "LOADA")] => some (some "a", "a.apl")
    | [some (.var "LOADB")] => some (some "b", "b.apl")
    | [some (.var "LOADC")] => some (some "c", "c.apl")
    | [some (.var "RUN")] => some (none, "a.apl")
    | _ => none
  files f := if f = "a.apl" then some ["X←1".toList, [], "f←{".toList, "-X}".toList, "⍝ end".toList]
    else if f = "b.apl" then some ["⎕IO←0".toList, "Y←2".toList]
    else if f = "c.apl" then some ["Z←2".toList, "€".toList]
    else none

def start : Machine Int Unit := ⟨St.init (), []⟩

/-- evaluate lines one after the other -/
def lines (n : Nat) : List String → Machine Int Unit → Option (Machine Int Unit)
  | [], i => some i
  | l :: ls, i => (evalLine world n l.toList i).bind (fun x => lines n ls x.2)

theorem lines_session (n : Nat) (ls : List String) (i j : Machine Int Unit) (h : Session world [] i) (hl : lines n ls i = some j) : Session world [] j := by
  induction ls generalizing i with
  | nil => cases hl; exact h
  | cons l ls ih =>
    rw [lines] at hl
    cases he : evalLine world n l.toList i with
    | none => rw [he] at hl; cases hl
    | some x =>
      rw [he] at hl
      obtain ⟨r, k⟩ := x
      exact ih k (.line [] i n l.toList r k h he) hl

-- X of the package a is 1, also after an assignment to X
example : (lines 30 ["LOADA", "X←2", "a→X", "X"] start).map (fun i => (i.st.out.map (fun v => match v with | .data d => d | _ => 77), i.pkgs)) = some ([-99, 1, 2], [("a", 1)]) := by decide +kernel
/-- A function of a package that uses a variable of its package finds the variable of its caller instead: names are looked up where a function
is called. -/
theorem C77_package_function_scope : (lines 30 ["LOADA", "X←2", "a→f 0"] start).map (fun i => i.st.out.map (fun v => match v with | .data d => d | _ => 77)) = some [-99, -2] := by decide +kernel
-- a block of two lines
example : IsBlock world.ctx ["f←{".toList, "-X}".toList] [⟨.identifier, "f"⟩, ⟨.symbol, "←"⟩, ⟨.leftBrace, "{"⟩, ⟨.symbol, "-"⟩, ⟨.identifier, "X"⟩, ⟨.rightBrace, "}"⟩] := by
  refine ⟨[[⟨.identifier, "f"⟩, ⟨.symbol, "←"⟩, ⟨.leftBrace, "{"⟩], [⟨.symbol, "-"⟩, ⟨.identifier, "X"⟩, ⟨.rightBrace, "}"⟩]], ?_, ?_, ?_, by decide, by decide, ?_⟩
  · exact .cons (by decide +kernel) (.cons (by decide +kernel) .nil)
  · exact .brace [_] [⟨.identifier, "f"⟩, ⟨.symbol, "←"⟩] ⟨.leftBrace, "{"⟩ _ (.first [] _ .nil (by decide)) rfl (by decide)
  · intro p q e
    have : p.length ≤ 6 := by have := congrArg List.length e; simp at this; omega
    have hp : p = List.take p.length [⟨.identifier, "f"⟩, ⟨.symbol, "←"⟩, ⟨.leftBrace, "{"⟩, ⟨.symbol, "-"⟩, ⟨.identifier, "X"⟩, ⟨.rightBrace, "}"⟩] := by rw [e]; simp
    rw [hp]
    generalize p.length = k at this
    have : k = 0 ∨ k = 1 ∨ k = 2 ∨ k = 3 ∨ k = 4 ∨ k = 5 ∨ k = 6 := by omega
    rcases this with rfl | rfl | rfl | rfl | rfl | rfl | rfl <;> decide
  · intro t1 t2 a e hne hj
    rcases t1 with _ | ⟨x, t1⟩
    · exact .inl (joined_unique _ _ _ hj .nil)
    · rcases t1 with _ | ⟨y, t1⟩
      · simp only [List.cons_append, List.nil_append, List.cons.injEq] at e
        obtain ⟨rfl, _⟩ := e
        rw [joined_unique _ _ _ hj (.first [] _ .nil (by decide))]
        exact .inr (by decide)
      · simp only [List.cons_append, List.cons.injEq] at e
        exact absurd (List.append_eq_nil_iff.1 e.2.2.symm).2 hne
-- a file that fails half way does not become a package
example : (lines 30 ["LOADC"] start).map (fun i => (i.pkgs, i.st.cur)) = some ([], 0) := by decide +kernel
-- without a package name the file is evaluated in the current environment
example : (lines 30 ["RUN", "X"] start).map (fun i => i.st.out.map (fun v => match v with | .data d => d | _ => 77)) = some [-99, 1] := by decide +kernel

/-- The exception: ⎕IO is not part of an environment; a package that sets it changes it for everybody. -/
theorem C77_origin_leaks : (lines 30 ["LOADB"] start).map (fun i => (start.st.origin, i.st.origin, i.pkgs)) = some (1, 0, [("b", 1)]) := by decide +kernel

end PkgDemo

end Iv

import Verif.Lemmas.Format
/-
Lemmas about `ScanRankArray`: texts of items, closed blocks and runs of blocks.
-/
namespace Iv
variable {V O : Type}

/-- What is assumed of the character classes (true of Go's unicode tables): a newline is not printable, the blank is white space, quotes and
the characters of numbers are not. -/
structure TextEnv.Ok (env : TextEnv V O) : Prop where
  newline : env.print '\n' = false
  blank : env.space ' ' = true
  quote : env.space '"' = false
  number : ∀ c, InNumber c → env.space c = false

/-- A text that stands for a number or a string. -/
inductive Reads' (env : TextEnv V O) : List Char → UItem V O → Prop
  | str (src w) : Spells src w → Reads' env ('"' :: src ++ ['"']) (.str (String.ofList w))
  | num (w n) : w ≠ [] → (∀ c ∈ w, InNumber c) → parseNumber env w = some n → Reads' env w (.num n)

/-- no number goes on here -/
def Breaks (rest : List Char) : Prop := ∀ c, rest.head? = some c → ¬ InNumber c

theorem readDouble_length (q : Bool) (cs src rest : List Char) (h : readDouble q cs = some (src, rest)) : rest.length < cs.length := by
  rw [readDouble_split q cs src rest h]
  simp only [List.length_append, List.length_cons]; omega

theorem scanNumber_length (cs : List Char) (h : (scanNumber cs).1 ≠ []) : (scanNumber cs).2.length < cs.length := by
  have e := congrArg List.length (scanNumber_append cs)
  rw [List.length_append] at e
  have := List.length_pos_iff.2 h
  omega

theorem rankLoop_fuel (env : TextEnv V O) (rank : Int) (n m : Nat) (cs : List Char) (st : RankSt V O) (hn : cs.length ≤ n) (hm : cs.length ≤ m) :
    rankLoop env rank n cs st = rankLoop env rank m cs st := by
  induction n generalizing m cs st with
  | zero =>
    have : cs = [] := List.length_eq_zero_iff.1 (by omega)
    subst this
    cases m <;> simp only [rankLoop]
  | succ n ih =>
    cases cs with
    | nil => cases m <;> simp only [rankLoop]
    | cons r cs =>
      cases m with
      | zero => simp at hm
      | succ m =>
        simp only [List.length_cons] at hn hm
        simp only [rankLoop]
        split
        · split
          · exact ih m cs _ (by omega) (by omega)
          split
          · rfl
          split
          · split
            · exact ih m cs _ (by omega) (by omega)
            · rfl
          · exact ih m cs _ (by omega) (by omega)
        split
        · exact ih m cs _ (by omega) (by omega)
        split
        · split
          · rfl
          · rename_i src rest e
            have := readDouble_length _ _ _ _ e
            split
            · rfl
            split
            · rfl
            · exact ih m rest _ (by omega) (by omega)
        split
        · rfl
        · rename_i h
          have := scanNumber_length _ h
          simp only [List.length_cons] at this
          split
          · rfl
          split
          · rfl
          · exact ih m _ _ (by omega) (by omega)

/-- the loop with enough rounds -/
def scanAll (env : TextEnv V O) (rank : Int) (cs : List Char) (st : RankSt V O) : Res (Scanned V O × List Char) :=
  rankLoop env rank cs.length cs st

theorem rankLoop_all (env : TextEnv V O) (rank : Int) (n : Nat) (cs : List Char) (st : RankSt V O) (hn : cs.length ≤ n) :
    rankLoop env rank n cs st = scanAll env rank cs st := rankLoop_fuel env rank n _ cs st hn (Nat.le_refl _)

theorem scanAll_nil (env : TextEnv V O) (rank : Int) (st : RankSt V O) : scanAll env rank [] st = withRest [] (finishRank rank st) := by
  rw [scanAll, List.length_nil, rankLoop]

theorem scanAll_close (env : TextEnv V O) (rank : Int) (r : Char) (cs : List Char) (st : RankSt V O) (hr : closesAxis r = true) :
    scanAll env rank (r :: cs) st =
      if st.values = [] then scanAll env rank cs st
      else if (st.c + 1 : Int) = rank then withRest cs (finishRank rank { st with c := st.c + 1 })
      else if st.c + 1 > st.shape.length then
        match growShape st.shape st.values.length with
        | .ok sh => scanAll env rank cs ⟨st.values, st.c + 1, sh⟩
        | .error e => .error e
      else scanAll env rank cs { st with c := st.c + 1 } := by
  rw [scanAll, List.length_cons, rankLoop, if_pos hr]
  rfl

theorem scanAll_skip (env : TextEnv V O) (rank : Int) (r : Char) (cs : List Char) (st : RankSt V O) (hc : closesAxis r = false)
    (hr : skipped env r = true) : scanAll env rank (r :: cs) st = scanAll env rank cs st := by
  rw [scanAll, List.length_cons, rankLoop, if_neg (by rw [hc]; decide), if_pos hr]
  rfl

theorem closes_quote : closesAxis '"' = false := by decide

theorem number_not_special (c : Char) (h : InNumber c) : closesAxis c = false ∧ c ≠ ',' ∧ c ≠ '[' ∧ c ≠ '(' ∧ c ≠ ')' ∧ c ≠ '"' := by
  refine ⟨?_, ?_, ?_, ?_, ?_, ?_⟩
  · cases hc : closesAxis c with
    | false => rfl
    | true =>
      exfalso
      rw [← numChar_iff] at h
      simp only [closesAxis, Bool.or_eq_true, beq_iff_eq] at hc
      rcases hc with (rfl | rfl) | rfl <;> revert h <;> decide
  all_goals (rintro rfl; rw [← numChar_iff] at h; revert h; decide)

theorem skipped_number (env : TextEnv V O) (ok : env.Ok) (c : Char) (h : InNumber c) : skipped env c = false := by
  obtain ⟨_, h1, h2, h3, h4, _⟩ := number_not_special c h
  simp [skipped, ok.number c h, h1, h2, h3, h4]

theorem skipped_quote (env : TextEnv V O) (ok : env.Ok) : skipped env '"' = false := by
  simp [skipped, ok.quote]

/-- an item is read and appended -/
theorem scanAll_item (env : TextEnv V O) (ok : env.Ok) (rank : Int) (w : List Char) (x : UItem V O) (h : Reads' env w x) (rest : List Char) (hb : Breaks rest)
    (st : RankSt V O) :
    scanAll env rank (w ++ rest) st =
      if rank = 0 then .ok (.one x, rest) else scanAll env rank rest ⟨st.values ++ [x], 0, st.shape⟩ := by
  cases h with
  | str src w h =>
    rw [List.cons_append, List.cons_append, List.append_assoc, List.singleton_append, scanAll, List.length_cons, rankLoop, if_neg (by rw [closes_quote]; decide),
      if_neg (by rw [skipped_quote env ok]; decide), if_pos rfl, readDouble_eq src w rest h]
    simp only
    rw [unquote_eq src w h _ (Nat.le_refl _)]
    simp only
    split
    · rfl
    · exact rankLoop_all env rank _ _ _ (by simp only [List.length_append, List.length_cons]; omega)
  | num _ n hne hw hp =>
    obtain ⟨c, cs, rfl⟩ := List.exists_cons_of_ne_nil hne
    have hc := hw c List.mem_cons_self
    have hs := scanNumber_eq (c :: cs) rest hw hb
    obtain ⟨h1, _, _, _, _, h6⟩ := number_not_special c hc
    rw [List.cons_append, scanAll, List.length_cons, rankLoop, if_neg (by rw [h1]; decide), if_neg (by rw [skipped_number env ok c hc]; decide), if_neg h6]
    rw [← List.cons_append, hs, if_neg (List.cons_ne_nil _ _)]
    simp only
    rw [hp]
    simp only
    split
    · rfl
    · exact rankLoop_all env rank _ _ _ (by simp only [List.length_append]; omega)

/-- Texts of arrays in which every axis is closed: `Blk dims items text`, and `Run dims n items text` for `n` blocks one after the other.
Characters that are skipped may stand in front. -/
inductive Blk (env : TextEnv V O) : Bool → List Nat → Nat → List (UItem V O) → List Char → Prop
  | item (w x) : Reads' env w x → Blk env true [] 0 [x] w
  | skip (c ds xs t) : closesAxis c = false → skipped env c = true → Blk env true ds 0 xs t → Blk env true ds 0 xs (c :: t)
  | block (d ds xs t c) : 0 < d → Blk env false ds d xs t → closesAxis c = true → Blk env true (d :: ds) 0 xs (t ++ [c])
  | nil (ds) : Blk env false ds 0 [] []
  | snoc (ds n xs t ys u) : Blk env false ds n xs t → Blk env true ds 0 ys u → (n ≠ 0 → ds = [] → Breaks u) → Blk env false ds (n + 1) (xs ++ ys) (t ++ u)

theorem blk_dims {env : TextEnv V O} {b : Bool} {ds : List Nat} {n : Nat} {xs : List (UItem V O)} {t : List Char} (h : Blk env b ds n xs t) :
    (xs.length = if b then size ds else n * size ds) ∧ (b = true → xs ≠ [] ∧ t ≠ [] ∧ 0 ∉ ds) ∧ (b = false → n ≠ 0 → xs ≠ [] ∧ 0 ∉ ds) := by
  induction h with
  | item w x h =>
    refine ⟨rfl, fun _ => ⟨List.cons_ne_nil _ _, ?_, by simp⟩, fun e => by cases e⟩
    cases h with
    | str => exact List.cons_ne_nil _ _
    | num _ _ h => exact h
  | skip c ds xs t _ _ _ ih => exact ⟨ih.1, fun e => ⟨(ih.2.1 e).1, List.cons_ne_nil _ _, (ih.2.1 e).2.2⟩, fun e => by cases e⟩
  | block d ds xs t c hd _ _ ih =>
    refine ⟨by rw [ih.1]; simp [size], fun _ => ?_, fun e => by cases e⟩
    have := ih.2.2 rfl (by omega)
    refine ⟨this.1, by simp, ?_⟩
    simp only [List.mem_cons, not_or]
    exact ⟨by omega, this.2⟩
  | nil ds => exact ⟨by simp, (fun e => (by cases e)), fun _ h => absurd rfl h⟩
  | snoc ds n xs t ys u _ _ _ ih1 ih2 =>
    refine ⟨?_, (fun e => (by cases e)), fun _ _ => ⟨?_, (ih2.2.1 rfl).2.2⟩⟩
    · rw [List.length_append, ih1.1, ih2.1]
      simp only [Bool.false_eq_true, if_false, if_true]
      rw [Nat.add_mul, Nat.one_mul]
    · exact fun e => (ih2.2.1 rfl).1 (List.append_eq_nil_iff.1 e).2

theorem breaks_append {t rest : List Char} (ht : Breaks t) (hne : t ≠ []) : Breaks (t ++ rest) := by
  obtain ⟨c, cs, rfl⟩ := List.exists_cons_of_ne_nil hne
  intro d hd
  exact ht d hd

theorem breaks_close (c : Char) (h : closesAxis c = true) (rest : List Char) : Breaks (c :: rest) := by
  intro d hd
  cases hd
  intro hn
  rw [(number_not_special _ hn).1] at h
  cases h

theorem size_pos_of {ds : List Nat} (h : 0 ∉ ds) : 0 < size ds := by
  induction ds with
  | nil => exact Nat.one_pos
  | cons d ds ih =>
    simp only [List.mem_cons, not_or] at h
    rw [size]
    exact Nat.mul_pos (by omega) (ih h.2)

/-- A block that is read while the shape has enough axes already. -/
theorem scanAll_more {env : TextEnv V O} (ok : env.Ok) {rank : Int} {b : Bool} {ds : List Nat} {n : Nat} {xs : List (UItem V O)} {t : List Char} (h : Blk env b ds n xs t) :
    ∀ (hr : rank < 0 ∨ (ds.length : Int) < rank) (rest : List Char) (hb : ds = [] → Breaks rest) (vs : List (UItem V O)) (c : Nat) (sh : List Nat) (hs : ds.length ≤ sh.length),
    scanAll env rank (t ++ rest) ⟨vs, c, sh⟩ = scanAll env rank rest ⟨vs ++ xs, if b = false ∧ n = 0 then c else ds.length, sh⟩ := by
  induction h with
  | item w x h =>
    intro hr rest hb vs c sh _
    rw [scanAll_item env ok rank w x h rest (hb rfl), if_neg (by simp only [List.length_nil] at hr; omega)]
    rfl
  | skip ch ds xs t h1 h2 _ ih =>
    intro hr rest hb vs c sh hs
    rw [List.cons_append, scanAll_skip env rank ch _ _ h1 h2, ih hr rest hb vs c sh hs]
  | block d ds xs t ch hd hrun hc ih =>
    intro hr rest hb vs c sh hs
    simp only [List.length_cons] at hr hs
    have hne := (blk_dims hrun).2.2 rfl (by omega)
    rw [List.append_assoc, List.singleton_append, ih (by omega) (ch :: rest) (fun _ => breaks_close ch hc rest) vs c sh (by omega), if_neg (by omega),
      scanAll_close env rank ch rest _ hc, if_neg (fun e => hne.1 (List.append_eq_nil_iff.1 e).2), if_neg (by simp only; omega), if_neg (by simp only; omega),
      if_neg (by simp)]
    rfl
  | nil ds =>
    intro hr rest hb vs c sh hs
    simp
  | snoc ds n xs t ys u _ hu hbr ih1 ih2 =>
    intro hr rest hb vs c sh hs
    by_cases hn : n = 0
    · subst hn
      rw [if_neg (by simp)]
      rename_i hrun
      cases hrun
      rw [List.nil_append, List.nil_append, ih2 hr rest hb vs c sh hs, if_neg (by simp)]
    · rw [List.append_assoc, ih1 hr (u ++ rest) (fun e => breaks_append (hbr hn e) ((blk_dims hu).2.1 rfl).2.1) vs c sh hs, ih2 hr rest hb _ _ sh hs,
        if_neg (by simp), if_neg (by simp), List.append_assoc]

theorem growShape_ok (d : Nat) (ds : List Nat) (h : 0 ∉ ds) (n : Nat) (hn : n = d * size ds) : growShape ds n = .ok (d :: ds) := by
  rw [growShape]
  by_cases he : ds = []
  · subst he
    rw [if_pos rfl, hn]; simp [size]
  · have := size_pos_of h
    rw [if_neg he, prod_eq_size he, if_neg (by omega), hn, Nat.mul_div_cancel _ this]

/-- The first block of a text: the shape is built up. -/
theorem scanAll_first {env : TextEnv V O} (ok : env.Ok) {rank : Int} {b : Bool} {ds : List Nat} {n : Nat} {xs : List (UItem V O)} {t : List Char} (h : Blk env b ds n xs t) :
    ∀ (_ : b = true ∨ n ≠ 0) (hr : rank < 0 ∨ (ds.length : Int) < rank) (rest : List Char) (hb : ds = [] → Breaks rest) (c : Nat),
    scanAll env rank (t ++ rest) ⟨[], c, []⟩ = scanAll env rank rest ⟨xs, ds.length, ds⟩ := by
  induction h with
  | item w x h =>
    intro _ hr rest hb c
    rw [scanAll_item env ok rank w x h rest (hb rfl), if_neg (by simp only [List.length_nil] at hr; omega)]
    rfl
  | skip ch ds xs t h1 h2 _ ih =>
    intro _ hr rest hb c
    rw [List.cons_append, scanAll_skip env rank ch _ _ h1 h2, ih (.inl rfl) hr rest hb c]
  | block d ds xs t ch hd hrun hc ih =>
    intro _ hr rest hb c
    simp only [List.length_cons] at hr
    have hne := (blk_dims hrun).2.2 rfl (by omega)
    rw [List.append_assoc, List.singleton_append, ih (.inr (by omega)) (by omega) (ch :: rest) (fun _ => breaks_close ch hc rest) c,
      scanAll_close env rank ch rest _ hc, if_neg hne.1, if_neg (by simp only; omega), if_pos (by simp only; omega)]
    simp only
    rw [growShape_ok d ds hne.2 xs.length (by rw [(blk_dims hrun).1]; rfl)]
    rfl
  | nil ds => intro h; simp at h
  | snoc ds n xs t ys u hrun hu hbr ih1 ih2 =>
    intro _ hr rest hb c
    by_cases hn : n = 0
    · subst hn
      cases hrun
      rw [List.nil_append, List.nil_append, ih2 (.inl rfl) hr rest hb c]
    · rw [List.append_assoc, ih1 (.inr hn) hr (u ++ rest) (fun e => breaks_append (hbr hn e) ((blk_dims hu).2.1 rfl).2.1) c,
        scanAll_more ok hu hr rest hb _ _ ds (Nat.le_refl _), if_neg (by simp)]

theorem finishRank_closed (xs : List (UItem V O)) (c : Nat) (d : Nat) (ds : List Nat) (hne : xs ≠ []) (hl : xs.length = size (d :: ds)) :
    finishRank (-1) (⟨xs, c, d :: ds⟩ : RankSt V O) = .ok (.array (d :: ds) xs) := by
  rw [finishRank, if_neg hne]
  simp only
  rw [if_pos (by decide), prod_eq_size (List.cons_ne_nil _ _), if_pos hl.symm, fillShape, if_neg (by simp only [List.length_cons]; omega)]
  rfl

theorem scan_blk {env : TextEnv V O} (ok : env.Ok) {d : Nat} {ds : List Nat} {xs : List (UItem V O)} {t : List Char} (h : Blk env true (d :: ds) 0 xs t) :
    scanRank env (-1) t = .ok (.array (d :: ds) xs, []) := by
  have := scanAll_first ok h (.inl rfl) (.inl (by decide : (-1 : Int) < 0)) [] (fun _ _ h => by cases h) 0
  rw [List.append_nil] at this
  rw [scanRank, ← scanAll, this, scanAll_nil, finishRank_closed xs _ d ds ((blk_dims h).2.1 rfl).1 (by rw [(blk_dims h).1]; rfl)]
  rfl

/-- The text of an array whose last blocks are not closed. -/
inductive Open' (env : TextEnv V O) : List Nat → List (UItem V O) → List Char → Prop
  | item (x t) : Blk env true [] 0 [x] t → Open' env [] [x] t
  | block (k ds xs t ys u) : Blk env false ds k xs t → Open' env ds ys u → (k ≠ 0 → ds = [] → Breaks u) → Open' env ((k + 1) :: ds) (xs ++ ys) (t ++ u)

theorem open_dims {env : TextEnv V O} {ds : List Nat} {xs : List (UItem V O)} {t : List Char} (h : Open' env ds xs t) :
    xs.length = size ds ∧ xs ≠ [] ∧ t ≠ [] ∧ 0 ∉ ds := by
  induction h with
  | item x t h =>
    have := blk_dims h
    exact ⟨rfl, List.cons_ne_nil _ _, (this.2.1 rfl).2.1, by simp⟩
  | block k ds xs t ys u h _ _ ih =>
    refine ⟨?_, fun e => ih.2.1 (List.append_eq_nil_iff.1 e).2, fun e => ih.2.2.1 (List.append_eq_nil_iff.1 e).2, ?_⟩
    · rw [List.length_append, (blk_dims h).1, ih.1, size, Nat.add_mul, Nat.one_mul]; rfl
    · simp only [List.mem_cons, not_or]
      exact ⟨by omega, ih.2.2.2⟩

theorem open_close {env : TextEnv V O} {ds : List Nat} {xs : List (UItem V O)} {t : List Char} (h : Open' env ds xs t) (c : Char) (hc : closesAxis c = true) :
    Blk env true ds 0 xs (t ++ List.replicate ds.length c) := by
  induction h with
  | item x t h => simpa using h
  | block k ds xs t ys u h ho hb ih =>
    have := Blk.snoc ds k xs t ys _ h ih (fun h1 h2 => by
      subst h2
      simpa using hb h1 rfl)
    have := Blk.block (k + 1) ds _ _ c (by omega) this hc
    rw [List.length_cons, List.replicate_succ']
    simpa [List.append_assoc] using this

theorem scanAll_open_more {env : TextEnv V O} (ok : env.Ok) {ds : List Nat} {xs : List (UItem V O)} {t : List Char} (h : Open' env ds xs t) :
    ∀ (vs : List (UItem V O)) (c : Nat) (sh : List Nat) (_ : ds.length ≤ sh.length),
    ∃ c', scanAll env (-1) t ⟨vs, c, sh⟩ = scanAll env (-1) [] ⟨vs ++ xs, c', sh⟩ := by
  have hneg : (-1 : Int) < 0 := by decide
  induction h with
  | item x t h =>
    intro vs c sh hs
    have := scanAll_more ok h (.inl hneg) [] (fun _ _ h => by cases h) vs c sh hs
    rw [List.append_nil] at this
    exact ⟨_, this⟩
  | block k ds xs t ys u h ho hb ih =>
    intro vs c sh hs
    simp only [List.length_cons] at hs
    by_cases hk : k = 0
    · subst hk
      cases h
      obtain ⟨c', e⟩ := ih vs c sh (by omega)
      exact ⟨c', e⟩
    · have := scanAll_more ok h (.inl hneg) u (hb hk) vs c sh (by omega)
      obtain ⟨c', e⟩ := ih (vs ++ xs) (if false = false ∧ k = 0 then c else ds.length) sh (by omega)
      exact ⟨c', by rw [this, e, List.append_assoc]⟩

theorem scanAll_open_first {env : TextEnv V O} (ok : env.Ok) {ds : List Nat} {xs : List (UItem V O)} {t : List Char} (h : Open' env ds xs t) :
    ∀ (c : Nat), ∃ c', scanAll env (-1) t ⟨[], c, []⟩ = scanAll env (-1) [] ⟨xs, c', (ds.dropWhile (· == 1)).tail⟩ := by
  have hneg : (-1 : Int) < 0 := by decide
  induction h with
  | item x t h =>
    intro c
    have := scanAll_first ok h (.inl rfl) (.inl hneg) [] (fun _ _ h => by cases h) c
    rw [List.append_nil] at this
    exact ⟨_, this⟩
  | block k ds xs t ys u h ho hb ih =>
    intro c
    by_cases hk : k = 0
    · subst hk
      cases h
      obtain ⟨c', e⟩ := ih c
      exact ⟨c', e⟩
    · have := scanAll_first ok h (.inr hk) (.inl hneg) u (hb hk) c
      obtain ⟨c', e⟩ := scanAll_open_more ok ho xs ds.length ds (Nat.le_refl _)
      refine ⟨c', ?_⟩
      rw [this, e, List.dropWhile_cons_of_neg (by simp; omega)]
      rfl

/-- leading axes of length one are left out (one axis remains) -/
def dropOnes (ds : List Nat) : List Nat := if ds.dropWhile (· == 1) = [] then [1] else ds.dropWhile (· == 1)

theorem size_dropOnes (ds : List Nat) : size (ds.dropWhile (· == 1)) = size ds := by
  induction ds with
  | nil => rfl
  | cons d ds ih =>
    rw [List.dropWhile_cons]
    split
    · rename_i h
      rw [ih, size, (by simpa using h : d = 1), Nat.one_mul]
    · rfl

theorem finishRank_open (xs : List (UItem V O)) (c : Nat) (ds : List Nat) (h0 : 0 ∉ ds) (hl : xs.length = size ds) :
    finishRank (-1) (⟨xs, c, (ds.dropWhile (· == 1)).tail⟩ : RankSt V O) = .ok (.array (dropOnes ds) xs) := by
  have hpos := size_pos_of h0
  have hne : xs ≠ [] := by rintro rfl; simp at hl; omega
  have hsz := size_dropOnes ds
  have hmem : 0 ∉ ds.dropWhile (· == 1) := fun h => h0 ((List.dropWhile_sublist _).mem h)
  have hhd : ∀ d, (ds.dropWhile (· == 1)).head? = some d → d ≠ 1 := by
    intro d hd e
    have := List.head?_dropWhile_not (· == 1) ds
    rw [hd] at this
    simp [e] at this
  rw [finishRank, if_neg hne]
  simp only
  rw [if_pos (by decide), dropOnes]
  generalize ds.dropWhile (· == 1) = es at *
  cases es with
  | nil =>
    simp only [size] at hsz
    have : xs.length = 1 := by omega
    simp only [List.tail_nil, prod, this, List.length_nil, if_true]
    rfl
  | cons e es =>
    have hp := size_pos_of hmem
    simp only [List.tail_cons]
    simp only [List.mem_cons, not_or] at hmem
    have hes := size_pos_of hmem.2
    have h1 : e ≠ 1 := hhd e rfl
    rw [size] at hsz
    rw [if_neg (List.cons_ne_nil _ _)]
    have hprod : prod es ≠ xs.length := by
      by_cases hn : es = []
      · subst hn; rw [prod]; omega
      · rw [prod_eq_size hn, hl, ← hsz]
        intro e'
        have : 1 * size es = e * size es := by omega
        exact h1 (Nat.eq_of_mul_eq_mul_right hes this).symm
    simp only [hprod, if_false]
    rw [fillShape, if_pos (by simp), if_neg, if_neg, fillShape.eq_def]
    · have e1 : xs.length / (if es = [] then 1 else prod es) = e := by
        by_cases hn : es = []
        · subst hn; rw [if_pos rfl, Nat.div_one, hl, ← hsz]; simp [size]
        · rw [if_neg hn, prod_eq_size hn, hl, ← hsz, Nat.mul_div_cancel _ hes]
      rw [e1]
      simp only [Int.toNat_natCast]
      rw [if_neg (by simp only [List.length_cons]; omega)]
      rfl
    · rw [not_not, prod_eq_size (List.cons_ne_nil _ _), size]
      by_cases hn : es = []
      · subst hn; rw [if_pos rfl, Nat.div_one]; simp [size]
      · rw [if_neg hn, prod_eq_size hn, hl, ← hsz, Nat.mul_div_cancel _ hes]
    · rintro ⟨h2, h3⟩
      rw [prod_eq_size h2] at h3
      omega

theorem scan_open {env : TextEnv V O} (ok : env.Ok) {ds : List Nat} {xs : List (UItem V O)} {t : List Char} (h : Open' env ds xs t) :
    scanRank env (-1) t = .ok (.array (dropOnes ds) xs, []) := by
  obtain ⟨c', e⟩ := scanAll_open_first ok h 0
  rw [scanRank, ← scanAll, e, scanAll_nil, finishRank_open xs c' ds (open_dims h).2.2.2 (open_dims h).1]
  rfl

end Iv

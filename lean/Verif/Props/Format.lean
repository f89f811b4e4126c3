import Verif.Lemmas.FormatText
import Verif.Props.Unify
import Verif.Props.Scan
/-
C70: arrays as text and back.  C71: integers as text and back.  C72: strings as text and back.
-/
namespace Iv
variable {V O : Type}

/- ## C71 integers -/

/-- The text of an integer: decimal digits with a high minus; for PP ¯8 octal digits after a zero, for PP ¯16 hexadecimal digits after 0x
(not negative). -/
theorem C71_text (pp : Int) (i : Int) :
    (pp ≠ -8 → pp ≠ -16 → intText pp i = if i < 0 then '¯' :: Nat.toDigits 10 i.natAbs else Nat.toDigits 10 i.natAbs) ∧
    (0 ≤ i → intText (-8) i = '0' :: Nat.toDigits 8 i.natAbs) ∧
    (0 ≤ i → intText (-16) i = '0' :: 'x' :: (Nat.toDigits 16 i.natAbs).map Char.toUpper) := by
  have hcore : ∀ (up : Bool) (base : Nat), 2 ≤ base → base ≤ 16 → ∀ fuel u acc acc', u < fuel →
      (acc = if up then acc'.map Char.toUpper else acc') →
      digitsLoop up base fuel u acc = if up then (Nat.toDigitsCore base fuel u acc').map Char.toUpper else Nat.toDigitsCore base fuel u acc' := by
    intro up base hb hb' fuel
    have hdc : ∀ d, d < 16 → digitChar up d = if up then (Nat.digitChar d).toUpper else Nat.digitChar d := by
      intro d hd
      cases up <;> interval_cases d <;> decide
    induction fuel with
    | zero => intro u _ _ h; omega
    | succ n ih =>
      intro u acc acc' hu hacc
      rw [digitsLoop, Nat.toDigitsCore]
      by_cases h : u < base
      · have h0 : u / base = 0 := Nat.div_eq_of_lt h
        have hm : u % base = u := Nat.mod_eq_of_lt h
        simp only [if_pos h, h0, hm, if_pos]
        rw [hdc u (by omega), hacc]
        cases up <;> simp
      · have h0 : u / base ≠ 0 := by
          have := Nat.div_pos (Nat.le_of_not_lt h) (by omega : 0 < base); omega
        have hlt : u / base < u := Nat.div_lt_self (by omega) (by omega)
        have hm : u % base < base := Nat.mod_lt _ (by omega)
        simp only [if_neg h, if_neg h0]
        refine ih _ _ _ (by omega) ?_
        rw [hdc _ (by omega), hacc]
        cases up <;> simp
  have h10 : ∀ u, natText false 10 u = Nat.toDigits 10 u := fun u => hcore false 10 (by decide) (by decide) (u + 1) u [] [] (by omega) rfl
  have h8 : ∀ u, natText false 8 u = Nat.toDigits 8 u := fun u => hcore false 8 (by decide) (by decide) (u + 1) u [] [] (by omega) rfl
  have h16 : ∀ u, natText true 16 u = (Nat.toDigits 16 u).map Char.toUpper := fun u => hcore true 16 (by decide) (by decide) (u + 1) u [] [] (by omega) rfl
  refine ⟨fun a b => ?_, fun h => ?_, fun h => ?_⟩
  · rw [intText_plain pp a b, h10]
  · rw [intText_special (-8) (.inl rfl) i h, if_pos rfl, h8]
  · rw [intText_special (-16) (.inr rfl) i h, if_neg (by decide), h16]

/-- An integer that is displayed is read back as the same integer. -/
theorem C71_round_trip (env : TextEnv V O) (pp : Int) (i : Int) (hi : I64 i) (h : pp = -8 ∨ pp = -16 → 0 ≤ i) :
    parseNumber env (intText pp i) = some (.int i) := by
  have hp : parseInt (intText pp i) = some i := by
    by_cases h8 : pp = -8
    · exact parseInt_special pp (.inl h8) i (h (.inl h8)) hi
    by_cases h16 : pp = -16
    · exact parseInt_special pp (.inr h16) i (h (.inr h16)) hi
    · exact parseInt_intText pp h8 h16 i hi
  rw [parseNumber]
  have h1 : intText pp i ≠ "1b".toList := by
    intro e; rw [e] at hp; cases hp
  have h0 : intText pp i ≠ "0b".toList := by
    intro e; rw [e] at hp; cases hp
  rw [if_neg h1, if_neg h0, hp]

/-- Exception: for PP ¯8 and ¯16 the text of a negative integer is not an integer, because the sign is written after the prefix. -/
theorem C71_negative (pp : Int) (hp : pp = -8 ∨ pp = -16) (i : Int) (h0 : i < 0) : parseInt (intText pp i) = none :=
  parseInt_negative pp hp i h0

example : intText (-16) (-15) = "0x¯F".toList ∧ parseInt "0x¯F".toList = none ∧ intText (-16) 26 = "0x1A".toList ∧ parseInt "0x1A".toList = some 26 := by decide
example : intText 0 (-120) = "¯120".toList ∧ parseInt "¯120".toList = some (-120) := by decide

theorem intText_number (pp : Int) (h : pp ≠ -8 ∧ pp ≠ -16) (i : Int) :
    intText pp i ≠ [] ∧ (∀ c ∈ intText pp i, InNumber c) ∧ BeginsNumber (intText pp i) := by
  rw [intText_plain pp h.1 h.2]
  have hn := natText_number false 10 (by decide) (by decide) i.natAbs
  split
  · refine ⟨List.cons_ne_nil _ _, ?_, .inr (.inl rfl)⟩
    intro c hc
    rcases List.mem_cons.1 hc with rfl | hc
    · exact .inr (.inr (.inr (.inr rfl)))
    · exact hn c hc
  · obtain ⟨d, cs, h1, h2, _⟩ := natText_head false 10 (by decide) (by decide) i.natAbs
    refine ⟨natText_ne false 10 (by decide) (by decide) _, hn, ?_⟩
    rw [h2]
    exact .inl (digitChar_digit false d h1)

/-- A displayed integer can be typed in again: it is scanned as one number token with this text. -/
theorem C71_token (ctx : ScanCtx) (pp : Int) (h : pp ≠ -8 ∧ pp ≠ -16) (i : Int) :
    scanLine ctx (intText pp i) = .ok [⟨.number, String.ofList (intText pp i)⟩] := by
  obtain ⟨_, h2, h3⟩ := intText_number pp h i
  rw [C49_scan]
  refine ⟨[⟨.number, String.ofList (intText pp i)⟩], ?_, ?_⟩
  · have := Lexes.token (ctx := ctx) (intText pp i) _ [] [] (.number _ [] (by simpa using h3) h2 (fun c hc => by cases hc)) .done
    simpa using this
  · exact .plain _ (fun _ _ _ e => by cases e)

/- ## C72 strings -/

/-- With a negative PP the text of a string is a literal that stands for it: typed in, it is scanned as this string, whatever characters it
has. -/
theorem C72_token (ctx : ScanCtx) (print : Char → Bool) (hp : print '\n' = false) (pp : Int) (h : pp < 0) (s : List Char) :
    scanLine ctx (strText print pp s) = .ok [⟨.string, String.ofList s⟩] := by
  rw [strText, if_pos h, quote]
  exact C48_line ctx _ _ (.quoted _ _ _ (quote_spells print hp s))

/-- The text is one literal also in front of other text. -/
theorem C72_literal (ctx : ScanCtx) (print : Char → Bool) (hp : print '\n' = false) (pp : Int) (h : pp < 0) (s rest : List Char) :
    Literal ctx (strText print pp s) ⟨.string, String.ofList s⟩ rest := by
  rw [strText, if_pos h, quote]
  exact .quoted _ _ _ (quote_spells print hp s)

/-- Without a negative PP a string is displayed as it is. -/
theorem C72_plain (print : Char → Bool) (pp : Int) (h : 0 ≤ pp) (s : List Char) : strText print pp s = s := if_neg (by omega)

/-- The display of a string contains no line break and nothing that is not printable. -/
theorem C72_printable (print : Char → Bool) (hascii : ∀ c : Char, 32 ≤ c.toNat → c.toNat < 127 → print c = true) (s : List Char) :
    ∀ c ∈ quote print s, print c = true := by
  have hdig : ∀ d, d < 16 → print (digitChar false d) = true := by
    intro d hd
    interval_cases d <;> exact hascii _ (by decide) (by decide)
  have hhex : ∀ k v, ∀ c ∈ hexDigits k v, print c = true := by
    intro k
    induction k with
    | zero => intro v c hc; cases hc
    | succ k ih =>
      intro v c hc
      rw [hexDigits, List.mem_append] at hc
      rcases hc with hc | hc
      · exact ih _ c hc
      · rw [List.mem_singleton.1 hc]; exact hdig _ (Nat.mod_lt _ (by decide))
  have hq : print '"' = true := hascii _ (by decide) (by decide)
  have hb : print '\\' = true := hascii _ (by decide) (by decide)
  have hrune : ∀ x, ∀ c ∈ quoteRune print x, print c = true := by
    intro x c hc
    rw [quoteRune] at hc
    split at hc
    · rename_i h
      simp only [List.mem_cons, List.not_mem_nil, or_false] at hc
      rcases hc with rfl | rfl
      · exact hb
      · rcases h with rfl | rfl
        · exact hq
        · exact hb
    split at hc
    · rename_i h
      rw [List.mem_singleton.1 hc]; exact h
    · unfold escapeRune at hc
      split at hc
      · rcases (by simpa using hc : c = '\\' ∨ c = 'a') with rfl | rfl <;> exact hascii _ (by decide) (by decide)
      split at hc
      · rcases (by simpa using hc : c = '\\' ∨ c = 'b') with rfl | rfl <;> exact hascii _ (by decide) (by decide)
      split at hc
      · rcases (by simpa using hc : c = '\\' ∨ c = 'f') with rfl | rfl <;> exact hascii _ (by decide) (by decide)
      split at hc
      · rcases (by simpa using hc : c = '\\' ∨ c = 'n') with rfl | rfl <;> exact hascii _ (by decide) (by decide)
      split at hc
      · rcases (by simpa using hc : c = '\\' ∨ c = 'r') with rfl | rfl <;> exact hascii _ (by decide) (by decide)
      split at hc
      · rcases (by simpa using hc : c = '\\' ∨ c = 't') with rfl | rfl <;> exact hascii _ (by decide) (by decide)
      split at hc
      · rcases (by simpa using hc : c = '\\' ∨ c = 'v') with rfl | rfl <;> exact hascii _ (by decide) (by decide)
      split at hc
      · rcases List.mem_cons.1 hc with rfl | hc
        · exact hb
        rcases List.mem_cons.1 hc with rfl | hc
        · exact hascii _ (by decide) (by decide)
        · exact hhex _ _ c hc
      split at hc
      · rcases List.mem_cons.1 hc with rfl | hc
        · exact hb
        rcases List.mem_cons.1 hc with rfl | hc
        · exact hascii _ (by decide) (by decide)
        · exact hhex _ _ c hc
      · rcases List.mem_cons.1 hc with rfl | hc
        · exact hb
        rcases List.mem_cons.1 hc with rfl | hc
        · exact hascii _ (by decide) (by decide)
        · exact hhex _ _ c hc
  intro c hc
  simp only [quote, List.cons_append, List.mem_cons, List.mem_append, List.mem_flatMap, List.not_mem_nil, or_false] at hc
  rcases hc with rfl | ⟨x, _, hx⟩ | rfl
  · exact hq
  · exact hrune x c hx
  · exact hq

example : quote (fun c => decide (32 ≤ c.toNat ∧ c.toNat < 127)) "a\"\n\x01é".toList = "\"a\\\"\\n\\x01\\u00e9\"".toList := by decide

/- ## C70 arrays -/

/-- An element whose text can be read back: a Bool, a 64-bit integer, a string, or a number of the tower whose text consists of characters
of numbers and is parsed as this number. -/
def Readable (env : TextEnv V O) (pp : Int) : UItem V O → Prop
  | .num (.bool _) => True
  | .num (.int i) => I64 i
  | .num (.num c v) => env.numText pp c v ≠ [] ∧ (∀ ch ∈ env.numText pp c v, InNumber ch) ∧ parseNumber env (env.numText pp c v) = some (.num c v)
  | .str _ => True
  | .other _ _ => False

theorem readable_reads (env : TextEnv V O) (ok : env.Ok) (pp : Int) (hpp : pp = -1 ∨ pp = -2 ∨ pp = -3) (x : UItem V O) (h : Readable env pp x) :
    Reads' env (itemText env pp x) x := by
  have hneg : pp < 0 := by omega
  match x, h with
  | .num (.bool b), _ =>
    have e : itemText env pp (.num (.bool b)) = if b then "1b".toList else "0b".toList := by
      rw [itemText, boolText, if_pos hneg]
    rw [e]
    cases b
    · exact .num _ _ (by decide) (fun c hc => by rw [← numChar_iff]; revert c; decide) rfl
    · exact .num _ _ (by decide) (fun c hc => by rw [← numChar_iff]; revert c; decide) rfl
  | .num (.int i), h =>
    have := intText_number pp (by omega) i
    exact .num _ _ this.1 this.2.1 (C71_round_trip env pp i h (by omega))
  | .num (.num c v), h => exact .num _ _ h.1 h.2.1 h.2.2
  | .str s, _ =>
    have e : itemText env pp (.str s) = '"' :: s.toList.flatMap (quoteRune env.print) ++ ['"'] := by
      rw [itemText, strText, if_pos hneg, quote]
    rw [e]
    have := Reads'.str (env := env) _ _ (quote_spells env.print ok.newline s.toList)
    rwa [String.ofList_toList] at this

/-- Elements with the number of elements of the shape. -/
def Proper (ds : List Nat) (xs : List (UItem V O)) : Prop := ds ≠ [] ∧ 0 ∉ ds ∧ xs.length = size ds

/-- `"A"⍎¯2⍕A` gives A back: the same shape and the same elements (as a mixed array). -/
theorem C70_json (env : TextEnv V O) (ok : env.Ok) (t : Tower V) (uni : GoType → Bool) (ds : List Nat) (xs : List (UItem V O)) (hp : Proper ds xs)
    (hx : ∀ x ∈ xs, Readable env (-2) x) :
    ∃ text, arrayText env (-2) ds xs = .ok text ∧ parseArray env t uni none text = .ok ⟨.mixed, ds, xs⟩ := by
  obtain ⟨h1, h2, h3⟩ := hp
  obtain ⟨text, e, hb⟩ := jsonText_blk env ok (itemText env (-2)) ds h1 h2 xs (fun x h => readable_reads env ok (-2) (by decide) x (hx x h)) (by omega)
  rw [← h3, List.take_length] at hb
  obtain ⟨d, es, rfl⟩ := List.exists_cons_of_ne_nil h1
  refine ⟨text, by rw [arrayText, if_pos rfl, e], ?_⟩
  rw [parseArray, scan_blk ok hb]

/-- `"A"⍎¯1⍕A` gives the elements of A back in the same shape, without leading axes of length one (the display does not show them). -/
theorem C70_table (env : TextEnv V O) (ok : env.Ok) (t : Tower V) (uni : GoType → Bool) (ds : List Nat) (xs : List (UItem V O)) (hp : Proper ds xs)
    (hx : ∀ x ∈ xs, Readable env (-1) x) :
    ∃ text, arrayText env (-1) ds xs = .ok text ∧ parseArray env t uni none text = .ok ⟨.mixed, dropOnes ds, xs⟩ := by
  obtain ⟨h1, h2, h3⟩ := hp
  have := tabText_open env ok (itemText env (-1)) ds h1 h2 xs (fun x h => readable_reads env ok (-1) (by decide) x (hx x h)) h3
  refine ⟨_, by rw [arrayText, if_neg (by decide), if_neg (by decide)], ?_⟩
  rw [parseArray, scan_open ok this]

/-- The same for a vector or a matrix and the notation of PP ¯3. -/
theorem C70_mat (env : TextEnv V O) (ok : env.Ok) (t : Tower V) (uni : GoType → Bool) (ds : List Nat) (xs : List (UItem V O)) (hp : Proper ds xs)
    (hr : ds.length ≤ 2) (hx : ∀ x ∈ xs, Readable env (-3) x) :
    ∃ text, arrayText env (-3) ds xs = .ok text ∧ parseArray env t uni none text = .ok ⟨.mixed, dropOnes ds, xs⟩ := by
  obtain ⟨h1, h2, h3⟩ := hp
  have hread : ∀ x ∈ xs, Reads' env (itemText env (-3) x) x := fun x h => readable_reads env ok (-3) (by decide) x (hx x h)
  match ds, hr with
  | [d], _ =>
    simp only [List.mem_cons, List.not_mem_nil, or_false] at h2
    simp only [size, Nat.mul_one] at h3
    have hb := run_join env ok ',' (by decide) (skip_comma env) [] _ _ (items_forall2 env (itemText env (-3)) xs (fun x hx' => .item _ _ (hread x hx')))
    rw [flatten_singles, List.length_map, h3] at hb
    have hb' := Blk.skip '[' _ _ _ (by decide) (skip_bracket env) (Blk.block d [] _ _ ']' (by omega) hb (by decide))
    refine ⟨_, by rw [arrayText, if_neg (by decide), if_pos rfl, matText], ?_⟩
    rw [parseArray, List.cons_append, scan_blk ok hb']
    have : dropOnes [d] = [d] := by
      rw [dropOnes]
      by_cases hd : d = 1
      · subst hd; rfl
      · rw [List.dropWhile_cons_of_neg (by simpa using hd)]; rfl
    rw [this]
  | [r, c], _ =>
    simp only [List.mem_cons, List.not_mem_nil, or_false, not_or] at h2
    simp only [size, Nat.mul_one] at h3
    obtain ⟨text, e, hb⟩ := matRows_run env ok (itemText env (-3)) c (by omega) xs hread r r 0 0 (by omega) (by omega) (by omega)
    rw [List.drop_zero, ← h3, List.take_length] at hb
    refine ⟨_, by rw [arrayText, if_neg (by decide), if_pos rfl, matText, e]; rfl, ?_⟩
    have hs : scanRank env (-1) ('[' :: text ++ [']']) = scanRank env (-1) (text ++ [']']) := by
      rw [scanRank, scanRank, List.cons_append, ← scanAll, ← scanAll, scanAll_skip env _ '[' _ _ (by decide) (skip_bracket env)]
    rw [parseArray, hs, scan_run ok (by omega) hb]

/-- The elements of a uniform array. -/
def OfType (t : Tower V) (uni : GoType → Bool) (ty : GoType) (xs : List (UItem V O)) : Prop :=
  (∀ x ∈ xs, x.type = ty) ∧ (ty = .str ∨ (t.classOf ty).isSome ∧ uni ty = true)

theorem unify_uniform (t : Tower V) (uni : GoType → Bool) (ty : GoType) (ds : List Nat) (xs : List (UItem V O)) (hne : xs ≠ []) (hl : xs.length = prod ds)
    (h : OfType t uni ty xs) : t.unify uni ⟨.mixed, ds, xs⟩ true = (⟨.compact ty, ds, xs⟩, true) := by
  obtain ⟨v0, vs, rfl⟩ := List.exists_cons_of_ne_nil hne
  have h0 := h.1 v0 List.mem_cons_self
  have hscan : ∀ (l : List (UItem V O)) (s : ScanSt V), (∀ x ∈ l, x.type = ty) → s.max = t.classOf ty → t.unifyScan true ty s l = some s := by
    intro l
    induction l with
    | nil => intro s _ _; rfl
    | cons v l ih =>
      intro s hl hs
      have hv := hl v List.mem_cons_self
      have hmax : t.unifyMax s v = s := by
        rw [Tower.unifyMax, hs, hv]
        cases hc : t.classOf ty with
        | none => rfl
        | some m => simp
      rw [Tower.unifyScan, if_neg (by rw [hv]; simp), hmax]
      exact ih s (fun x hx => hl x (List.mem_cons_of_mem _ hx)) hs
  have hs := hscan vs ⟨t.classOf ty, if (t.classOf ty).isSome then v0.number else none, true⟩ (fun x hx => h.1 x (List.mem_cons_of_mem _ hx)) rfl
  simp only [Tower.unify, h0, hs, if_true]
  rcases h.2 with rfl | ⟨h1, h2⟩
  · rfl
  · obtain ⟨m, hm⟩ := Option.isSome_iff_exists.1 h1
    have hfill : cycFill (v0 :: vs) (prod ds) 0 = .ok (v0 :: vs) := by rw [← hl]; exact cycFill_self _ (by simp)
    simp only [Tower.unifySame, hm, uniformOf, h0, h2, if_true, hfill]

/-- With a prototype of the same type, A itself comes back: a uniform array of the same type, shape and elements. -/
theorem C70_prototype (env : TextEnv V O) (ok : env.Ok) (t : Tower V) (uni : GoType → Bool) (ty : GoType) (ds : List Nat) (xs : List (UItem V O)) (hp : Proper ds xs)
    (hx : ∀ x ∈ xs, Readable env (-2) x) (hty : OfType t uni ty xs) :
    ∃ text, arrayText env (-2) ds xs = .ok text ∧ parseArray env t uni (some ty) text = .ok ⟨.compact ty, ds, xs⟩ := by
  obtain ⟨text, h1, h2⟩ := C70_json env ok t uni ds xs hp hx
  refine ⟨text, h1, ?_⟩
  have hne : xs ≠ [] := by
    rintro rfl
    have := size_pos_of hp.2.1
    rw [← hp.2.2] at this
    simp at this
  rw [parseArray] at h2 ⊢
  cases hs : scanRank env (-1) text with
  | error e => rw [hs] at h2; cases h2
  | ok p =>
    obtain ⟨r, rest⟩ := p
    rw [hs] at h2
    cases r with
    | eof => cases h2
    | one x => cases h2
    | array sh vs =>
      simp only [Except.ok.injEq, UArr.mk.injEq, true_and] at h2
      obtain ⟨rfl, rfl⟩ := h2
      simp only [unify_uniform t uni ty sh vs hne (by rw [prod_eq_size hp.1]; exact hp.2.2) hty]
      rw [if_neg (by simp), if_neg (by simp [sameRep])]

/-- With a prototype, the result has the type of the prototype, or it is an error. -/
theorem C70_prototype_type (env : TextEnv V O) (t : Tower V) (uni : GoType → Bool) (ty : GoType) (text : List Char) (A : UArr V O)
    (h : parseArray env t uni (some ty) text = .ok A) : A.rep = .compact ty := by
  rw [parseArray] at h
  split at h
  · cases h
  · simp only at h
    split at h
    · cases h
    split at h
    · cases h
    · rename_i hs
      cases h
      simpa [sameRep] using hs
  · cases h

theorem fillShape_spec (n : Nat) (hn : n ≠ 0) (rank : Int) (fuel i : Nat) (sh : List Nat) (hf : rank - sh.length - i + 1 < fuel)
    (hf1 : 0 < fuel) :
    (fillShape n rank fuel i sh = .error .err) ∨
    ∃ s, fillShape n rank fuel i sh = .ok s ∧ ((i : Int) ≤ rank - sh.length → s ≠ [] ∧ size s = n) ∧ (¬ (i : Int) ≤ rank - sh.length → s = sh) := by
  induction fuel generalizing i sh with
  | zero => omega
  | succ fuel ih =>
    rw [fillShape]
    by_cases h : (i : Int) ≤ rank - sh.length
    · rw [if_pos h]
      generalize (n / if sh = [] then 1 else prod sh) = q
      split
      · exact .inl rfl
      split
      · exact .inl rfl
      · rename_i h1 h2
        rw [not_not] at h2
        rcases ih (i + 1) (q :: sh) (by simp only [List.length_cons]; omega) (by omega) with h3 | ⟨s, h3, h4, h5⟩
        · exact .inl h3
        · refine .inr ⟨s, h3, fun _ => ?_, fun h' => absurd h h'⟩
          by_cases hn : ((i + 1 : Nat) : Int) ≤ rank - (q :: sh).length
          · exact h4 hn
          · rw [h5 hn]
            exact ⟨List.cons_ne_nil _ _, by rwa [prod_eq_size (List.cons_ne_nil _ _)] at h2⟩
    · rw [if_neg h]
      exact .inr ⟨sh, rfl, fun h' => absurd h' h, fun _ => rfl⟩

/-- the states that the loop of `ScanRankArray` reaches -/
structure RankOk (rank : Int) (st : RankSt V O) : Prop where
  count : st.c ≤ st.shape.length
  prod : st.shape ≠ [] → 0 < size st.shape ∧ size st.shape ≤ st.values.length
  rank : 0 ≤ rank → st.values ≠ [] → (st.shape.length : Int) < rank
  nil : st.values = [] → st.shape = []

/-- What the result of parsing has to be: an array with as many elements as its shape says. -/
def Rectangular : Scanned V O → Prop
  | .array sh vs => sh ≠ [] ∧ vs ≠ [] ∧ size sh = vs.length
  | _ => True

theorem finishRank_spec (rank : Int) (st : RankSt V O) (h : 0 ≤ rank → st.values ≠ [] → (st.shape.length : Int) < rank) :
    finishRank rank st = .error .err ∨ ∃ r, finishRank rank st = .ok r ∧ Rectangular r := by
  rw [finishRank]
  split
  · exact .inr ⟨.eof, rfl, trivial⟩
  · rename_i hne
    have hn : st.values.length ≠ 0 := fun e => hne (List.length_eq_zero_iff.1 e)
    simp only
    have key : ∀ r : Int, ((0 : Nat) : Int) ≤ r - st.shape.length ∨ (st.shape ≠ [] ∧ size st.shape = st.values.length) →
        (Except.map (fun sh => Scanned.array sh st.values) (fillShape st.values.length r (r.toNat + 2) 0 st.shape) = .error .err) ∨
        ∃ x, (Except.map (fun sh => Scanned.array sh st.values) (fillShape st.values.length r (r.toNat + 2) 0 st.shape) : Res (Scanned V O)) = .ok x ∧ Rectangular x := by
      intro r hr
      rcases fillShape_spec st.values.length hn r (r.toNat + 2) 0 st.shape (by omega) (by omega) with h1 | ⟨s, h1, h2, h3⟩
      · rw [h1]; exact .inl rfl
      · rw [h1]
        refine .inr ⟨.array s st.values, rfl, ?_⟩
        by_cases h4 : ((0 : Nat) : Int) ≤ r - st.shape.length
        · exact ⟨(h2 h4).1, hne, (h2 h4).2⟩
        · rw [h3 h4]
          rcases hr with hr | hr
          · exact absurd hr h4
          · exact ⟨hr.1, hne, hr.2⟩
    by_cases hr : rank < 0
    · simp only [if_pos hr]
      by_cases hp : prod st.shape = st.values.length
      · simp only [if_pos hp]
        have hs : st.shape ≠ [] := by
          intro e; rw [e] at hp; exact hn hp.symm
        exact key _ (.inr ⟨hs, by rwa [prod_eq_size hs] at hp⟩)
      · simp only [if_neg hp]
        exact key _ (.inl (by omega))
    · simp only [if_neg hr]
      exact key _ (.inl (by have := h (by omega) hne; omega))

theorem withRest_spec (rest : List Char) (r : Res (Scanned V O)) (h : r = .error .err ∨ ∃ x, r = .ok x ∧ Rectangular x) :
    withRest rest r = .error .err ∨ ∃ x, withRest rest r = .ok (x, rest) ∧ Rectangular x := by
  rcases h with rfl | ⟨x, rfl, hx⟩
  · exact .inl rfl
  · exact .inr ⟨x, rfl, hx⟩

theorem rankLoop_spec (env : TextEnv V O) (rank : Int) (n : Nat) (cs : List Char) (st : RankSt V O) (hn : cs.length ≤ n) (h : RankOk rank st) :
    rankLoop env rank n cs st = .error .err ∨ ∃ x rest, rankLoop env rank n cs st = .ok (x, rest) ∧ Rectangular x := by
  have lift : ∀ rest (r : Res (Scanned V O)), (r = .error .err ∨ ∃ x, r = .ok x ∧ Rectangular x) →
      withRest rest r = .error .err ∨ ∃ x rest', withRest rest r = .ok (x, rest') ∧ Rectangular x := by
    intro rest r hr
    rcases withRest_spec rest r hr with h1 | ⟨x, h1, h2⟩
    · exact .inl h1
    · exact .inr ⟨x, rest, h1, h2⟩
  induction n generalizing cs st with
  | zero =>
    have : cs = [] := List.length_eq_zero_iff.1 (by omega)
    subst this
    simp only [rankLoop]
    exact lift _ _ (finishRank_spec rank st h.rank)
  | succ n ih =>
    cases cs with
    | nil => simp only [rankLoop]; exact lift _ _ (finishRank_spec rank st h.rank)
    | cons r cs =>
      simp only [List.length_cons] at hn
      have hitem : ∀ x rest, rest.length ≤ n → rank ≠ 0 → (rankLoop env rank n rest ⟨st.values ++ [x], 0, st.shape⟩ = .error .err ∨
          ∃ y rest', rankLoop env rank n rest ⟨st.values ++ [x], 0, st.shape⟩ = .ok (y, rest') ∧ Rectangular y) := by
        intro x rest hlen h0
        refine ih rest _ hlen ⟨Nat.zero_le _, fun hs => ?_, fun hr _ => ?_, fun e => by simp at e⟩
        · have := h.prod hs
          simp only [List.length_append, List.length_singleton]
          exact ⟨this.1, by omega⟩
        · by_cases hv : st.values = []
          · simp only [h.nil hv, List.length_nil]; omega
          · exact h.rank hr hv
      simp only [rankLoop]
      split
      · split
        · exact ih cs st (by omega) h
        rename_i hv
        split
        · exact lift _ _ (finishRank_spec rank _ h.rank)
        rename_i hc
        split
        · rename_i hgt
          have hc1 := h.count
          have hl : st.c = st.shape.length := by omega
          rw [growShape]
          by_cases hs : st.shape = []
          · rw [if_pos hs]
            refine ih cs _ (by omega) ⟨?_, fun _ => ?_, fun hr _ => ?_, fun e => absurd e hv⟩
            · simp only [hl, hs]; exact Nat.le_refl _
            · have := List.length_pos_iff.2 hv
              simp only [size, Nat.mul_one]
              exact ⟨this, Nat.le_refl _⟩
            · have := h.rank hr hv
              simp only [List.length_singleton]
              rw [hl, hs] at hc
              simp only [List.length_nil] at hc
              rw [hs] at this
              simp only [List.length_nil] at this
              omega
          · have hp := h.prod hs
            rw [if_neg hs, prod_eq_size hs, if_neg (by omega)]
            refine ih cs _ (by omega) ⟨?_, fun _ => ?_, fun hr _ => ?_, fun e => absurd e hv⟩
            · simp only [List.length_cons]; omega
            · have hq := Nat.div_pos hp.2 hp.1
              rw [size]
              exact ⟨Nat.mul_pos hq hp.1, Nat.div_mul_le_self _ _⟩
            · have := h.rank hr hv
              simp only [List.length_cons]
              omega
        · rename_i hgt
          exact ih cs _ (by omega) ⟨by simp only; omega, h.prod, h.rank, h.nil⟩
      split
      · exact ih cs st (by omega) h
      split
      · split
        · exact .inl rfl
        · rename_i src rest e
          have := readDouble_length _ _ _ _ e
          split
          · exact .inl rfl
          split
          · exact .inr ⟨_, _, rfl, trivial⟩
          · rename_i h0
            exact hitem _ rest (by omega) h0
      split
      · exact .inl rfl
      · rename_i hne
        have := scanNumber_length _ hne
        simp only [List.length_cons] at this
        split
        · exact .inl rfl
        split
        · exact .inr ⟨_, _, rfl, trivial⟩
        · rename_i h0
          exact hitem _ _ (by omega) h0

/-- Parsing never crashes: whatever the text, the result is an error or an array that has as many elements as its shape says (at least
one). -/
theorem C70_total (env : TextEnv V O) (rank : Int) (text : List Char) :
    scanRank env rank text = .error .err ∨ ∃ x rest, scanRank env rank text = .ok (x, rest) ∧ Rectangular x :=
  rankLoop_spec env rank _ text _ (Nat.le_refl _) ⟨Nat.le_refl _, fun h => absurd rfl h, fun _ h => absurd rfl h, fun _ => rfl⟩

theorem scanAll_blank (env : TextEnv V O) (rank : Int) (text : List Char) (h : ∀ c ∈ text, closesAxis c = true ∨ skipped env c = true) (c : Nat) :
    scanAll env rank text ⟨[], c, []⟩ = .ok (.eof, []) := by
  induction text with
  | nil => rfl
  | cons r cs ih =>
    have ih' := ih (fun d hd => h d (List.mem_cons_of_mem _ hd))
    cases hc : closesAxis r with
    | true => rw [scanAll_close env rank r cs _ hc, if_pos rfl, ih']
    | false =>
      rcases h r List.mem_cons_self with h1 | h1
      · rw [h1] at hc; cases hc
      · rw [scanAll_skip env rank r cs _ hc h1, ih']

theorem mapM_ok_length' {α β : Type} (l : List α) (f : α → Res β) (r : List β) (h : l.mapM f = .ok r) : r.length = l.length := by
  induction l generalizing r with
  | nil => cases h; rfl
  | cons a l ih =>
    rw [List.mapM_cons] at h
    cases ha : f a with
    | error e => rw [ha] at h; cases h
    | ok b =>
      cases hl : l.mapM f with
      | error e => rw [ha, hl] at h; cases h
      | ok bs => rw [ha, hl] at h; cases h; rw [List.length_cons, List.length_cons, ih bs hl]

theorem mapM_ok_get' {α β : Type} (l : List α) (f : α → Res β) (r : List β) (h : l.mapM f = .ok r) (i : Nat) (h1 : i < l.length) (h2 : i < r.length) :
    f l[i] = .ok r[i] := by
  induction l generalizing r i with
  | nil => cases h1
  | cons a l ih =>
    rw [List.mapM_cons] at h
    cases ha : f a with
    | error e => rw [ha] at h; cases h
    | ok b =>
      cases hl : l.mapM f with
      | error e => rw [ha, hl] at h; cases h
      | ok bs =>
        rw [ha, hl] at h
        cases h
        cases i with
        | zero => exact ha
        | succ i => exact ih bs hl i (by simpa using h1) (by simpa using h2)

/-- An array without elements cannot be read back: parsing its text is an error. -/
theorem C70_no_elements (env : TextEnv V O) (t : Tower V) (uni : GoType → Bool) (proto : Option GoType) (pp : Int)
    (hpp : pp = -1 ∨ pp = -2 ∨ pp = -3) (ds : List Nat) (hr : pp = -3 → ds.length = 1 ∨ ds.length = 2) (text : List Char)
    (h : arrayText env pp ds ([] : List (UItem V O)) = .ok text) : parseArray env t uni proto text = .error .err := by
  have hjoin : ∀ c : Char, (closesAxis c = true ∨ skipped env c = true) → ∀ parts : List (List Char),
      (∀ p ∈ parts, ∀ d ∈ p, closesAxis d = true ∨ skipped env d = true) → ∀ d ∈ joinText [c] parts, closesAxis d = true ∨ skipped env d = true := by
    intro c hc parts
    induction parts with
    | nil => intro _ d hd; cases hd
    | cons p ps ih =>
      intro hp d hd
      cases ps with
      | nil => exact hp p List.mem_cons_self d hd
      | cons q qs =>
        rw [joinText, List.mem_append, List.mem_append] at hd
        rcases hd with (hd | hd) | hd
        · exact hp p List.mem_cons_self d hd
        · rw [List.mem_singleton.1 hd]; exact hc
        · exact ih (fun p' hp' => hp p' (List.mem_cons_of_mem _ hp')) d hd
  have hopen : closesAxis '[' = true ∨ skipped env '[' = true := .inr (skip_bracket env)
  have hclose : closesAxis ']' = true ∨ skipped env ']' = true := .inl (by decide)
  have hcomma : closesAxis ',' = true ∨ skipped env ',' = true := .inr (skip_comma env)
  have hsemi : closesAxis ';' = true ∨ skipped env ';' = true := .inl (by decide)
  have hwrap : ∀ mid : List Char, (∀ c ∈ mid, closesAxis c = true ∨ skipped env c = true) → ∀ c ∈ '[' :: mid ++ [']'], closesAxis c = true ∨ skipped env c = true := by
    intro mid hm c hc
    simp only [List.cons_append, List.mem_cons, List.mem_append, List.not_mem_nil, or_false] at hc
    rcases hc with rfl | hc | rfl
    · exact hopen
    · exact hm c hc
    · exact hclose
  have hjson : ∀ (ds : List Nat) (text : List Char), jsonText ds [] = .ok text → ∀ c ∈ text, closesAxis c = true ∨ skipped env c = true := by
    intro ds
    induction ds with
    | nil => intro text h; cases h
    | cons d ds ih =>
      intro text h
      cases ds with
      | nil =>
        rw [jsonText] at h
        split at h
        · cases h
          refine hwrap _ (by simp [joinText])
        · cases h
      | cons e es =>
        rw [jsonText] at h
        cases hm : (List.range d).mapM (fun i =>
            if i * prod (e :: es) ≤ ([] : List (List Char)).length then jsonText (e :: es) (([] : List (List Char)).drop (i * prod (e :: es))) else (.error .panic : Res _)) with
        | error e' => rw [hm] at h; cases h
        | ok parts =>
          rw [hm] at h
          cases h
          refine hwrap _ (hjoin ',' hcomma parts ?_)
          intro p hp
          obtain ⟨i, hi, rfl⟩ := List.getElem_of_mem hp
          have hlen := mapM_ok_length' _ _ _ hm
          have := mapM_ok_get' _ _ _ hm i (by simpa [hlen] using hi) hi
          simp only [List.drop_nil] at this
          split at this
          · exact ih _ this
          · cases this
  have hrows : ∀ (left rows cols i off : Nat) (text : List Char), matRows rows cols [] left i off = .ok text → ∀ c ∈ text, closesAxis c = true ∨ skipped env c = true := by
    intro left
    induction left with
    | zero => intro rows cols i off text h c hc; rw [matRows] at h; cases h; cases hc
    | succ n ih =>
      intro rows cols i off text h c hc
      rw [matRows] at h
      split at h
      · cases hm : matRows rows cols [] n (i + 1) (off + cols) with
        | error e => rw [hm] at h; cases h
        | ok rest =>
          rw [hm] at h
          cases h
          simp only [List.drop_nil, List.take_nil, joinText, List.nil_append, List.mem_append] at hc
          rcases hc with hc | hc
          · split at hc
            · rw [List.mem_singleton.1 hc]; exact hsemi
            · cases hc
          · exact ih _ _ _ _ _ hm c hc
      · cases h
  have hall : ∀ c ∈ text, closesAxis c = true ∨ skipped env c = true := by
    rcases hpp with rfl | rfl | rfl
    · rw [arrayText, if_neg (by decide), if_neg (by decide)] at h
      cases h
      have : tabText ds [] = [] := by
        rw [tabText.eq_def]
        split <;> rfl
      rw [List.map_nil, this]
      intro c hc; cases hc
    · rw [arrayText, if_pos rfl] at h
      exact hjson ds text h
    · rw [arrayText, if_neg (by decide), if_pos rfl] at h
      match ds, hr rfl with
      | [d], _ => cases h; exact hwrap _ (by simp [joinText])
      | [r, c], _ =>
        rw [matText] at h
        cases hm : matRows r c (([] : List (UItem V O)).map (itemText env (-3))) r 0 0 with
        | error e => rw [hm] at h; cases h
        | ok t =>
          rw [hm] at h
          cases h
          exact hwrap _ (hrows _ _ _ _ _ _ hm)
  rw [parseArray, scanRank, ← scanAll, scanAll_blank env (-1) text hall 0]

end Iv

import Verif.Model.Json
import Verif.SpecJson
import Verif.Lemmas.FormatText
import Verif.Props.BigText
import Verif.Lemmas.Shape
/-
C96: the text of nested values at PP ¯2 is JSON.
-/
namespace Iv
variable {V O : Type}
open JRead

/-- Characters that JSON texts can show: printable ones, and those whose escape is one of JSON. -/
def JsonChar (print : Char → Bool) (c : Char) : Prop :=
  print c = true ∨ c ∈ ['"', '\\', '\x08', '\x0c', '\n', '\r', '\t'] ∨ (32 ≤ c.toNat ∧ c.toNat ≠ 127 ∧ c.toNat < 65536)

/-- induction over the nesting of values -/
theorem TVal.ind {P : TVal V O → Prop} (hi : ∀ x, P (.item x)) (he : P .empty) (ha : ∀ ds xs, (∀ x ∈ xs, P x) → P (.arr ds xs))
    (hl : ∀ xs, (∀ x ∈ xs, P x) → P (.list xs)) (hd : ∀ es, (∀ e ∈ es, P e.1 ∧ P e.2) → P (.dict es)) : ∀ v, P v
  | .item x => hi x
  | .empty => he
  | .arr ds xs => ha ds xs (fun x _ => TVal.ind hi he ha hl hd x)
  | .list xs => hl xs (fun x _ => TVal.ind hi he ha hl hd x)
  | .dict es => hd es (fun e _ => ⟨TVal.ind hi he ha hl hd e.1, TVal.ind hi he ha hl hd e.2⟩)
termination_by v => sizeOf v
decreasing_by
  · have := List.sizeOf_lt_of_mem ‹_›; simp; omega
  · have := List.sizeOf_lt_of_mem ‹_›; simp; omega
  · have := List.sizeOf_lt_of_mem ‹_›; rcases e with ⟨a, b⟩; simp at this ⊢; omega
  · have := List.sizeOf_lt_of_mem ‹_›; rcases e with ⟨a, b⟩; simp at this ⊢; omega

/-- Values as APL programs make them: arrays have axes and as many elements as their shape says.  Not considered here: numbers of the
tower (their text is a parameter of the model), other Go values, and the empty array, which has no text (see `C96_empty`). -/
inductive JPlain : TVal V O → Prop
  | bool (b) : JPlain (.item (.num (.bool b)))
  | int (i) : JPlain (.item (.num (.int i)))
  | str (s) : JPlain (.item (.str s))
  | arr (ds xs) : ds ≠ [] → xs.length = size ds → (∀ x ∈ xs, JPlain x) → JPlain (.arr ds xs)
  | list (xs) : (∀ x ∈ xs, JPlain x) → JPlain (.list xs)
  | dict (es) : (∀ e ∈ es, JPlain e.1) → (∀ e ∈ es, JPlain e.2) → JPlain (.dict es)

/-- Values that have a JSON text: integers that are not negative, strings of `JsonChar`s, arrays and lists of such values, and dictionaries
of such values with strings as keys. -/
inductive JGood (print : Char → Bool) : TVal V O → Prop
  | int (n : Nat) : JGood print (.item (.num (.int n)))
  | str (s : String) : (∀ c ∈ s.toList, JsonChar print c) → JGood print (.item (.str s))
  | arr (ds xs) : (∀ x ∈ xs, JGood print x) → JGood print (.arr ds xs)
  | list (xs) : (∀ x ∈ xs, JGood print x) → JGood print (.list xs)
  | dict (es) : (∀ e ∈ es, ∃ s : String, e.1 = .item (.str s) ∧ ∀ c ∈ s.toList, JsonChar print c) → (∀ e ∈ es, JGood print e.2) → JGood print (.dict es)

mutual

/-- The JSON value of a value; arrays are nested JSON arrays. -/
def TVal.json : TVal V O → Json
  | .item (.num (.bool b)) => .bool b
  | .item (.num (.int i)) => .num i 0
  | .item (.str s) => .str s.toList
  | .item _ => .null
  | .empty => .arr []
  | .arr ds xs => nested ds (fun p => (jsons xs).getD (flat ds p) .null)
  | .list xs => .arr (jsons xs)
  | .dict es => .obj (jsonMembers es)

/-- the JSON values of the elements -/
def jsons : List (TVal V O) → List Json
  | [] => []
  | x :: xs => x.json :: jsons xs

/-- the members for the entries; keys are strings -/
def jsonMembers : List (TVal V O × TVal V O) → List (List Char × Json)
  | [] => []
  | (.item (.str s), v) :: es => (s.toList, v.json) :: jsonMembers es
  | (_, v) :: es => ([], v.json) :: jsonMembers es

end

theorem jsons_map (xs : List (TVal V O)) : jsons xs = xs.map TVal.json := by
  induction xs with
  | nil => rfl
  | cons x xs ih => simp [jsons, ih]

/-! Reading -/

/-- nothing that goes on a number -/
def JStops (rest : List Char) : Prop := ∀ c, rest.head? = some c → digit c = false ∧ c ≠ '.' ∧ c ≠ 'e' ∧ c ≠ 'E'

/-- what a text of a value starts with -/
def JStarts (t : List Char) : Prop := ∃ c s, t = c :: s ∧ ws c = false ∧ c ≠ ']' ∧ c ≠ '}'

/-- the text is read as the JSON value, in front of any other text -/
def JReads (t : List Char) (j : Json) : Prop := JStarts t ∧ ∀ rest n, JStops rest → t.length < n → val n (t ++ rest) = some (j, rest)

/-- the text is not read in front of a separator -/
def JBad (t : List Char) : Prop := JStarts t ∧ ∀ rest n j r, t.length < n → val n (t ++ rest) = some (j, r) → ∃ r', r = 'b' :: r'

theorem skip_of {c : Char} {s : List Char} (h : ws c = false) : skip (c :: s) = c :: s := by
  simp [skip, h]

theorem skip_starts {t rest : List Char} (h : JStarts t) : skip (t ++ rest) = t ++ rest := by
  obtain ⟨c, s, rfl, hw, _⟩ := h
  exact skip_of hw

theorem joinText_cons (sep x : List Char) (xs : List (List Char)) :
    joinText sep (x :: xs) = x ++ (if xs = [] then [] else sep ++ joinText sep xs) := by
  cases xs with
  | nil => simp [joinText]
  | cons y ys => simp [joinText]

theorem stops_of (c : Char) (r : List Char) (h : c ∈ [',', ']', '}', ':']) : JStops (c :: r) := by
  intro d hd
  cases hd
  simp only [List.mem_cons, List.not_mem_nil, or_false] at h
  rcases h with rfl | rfl | rfl | rfl <;> decide

theorem items_reads (ts : List (List Char)) (js : List Json) (h : List.Forall₂ JReads ts js) (hne : ts ≠ []) :
    ∀ rest n, (joinText [','] ts).length + 1 < n → items n (joinText [','] ts ++ ']' :: rest) = some (js, rest) := by
  induction h with
  | nil => exact absurd rfl hne
  | @cons t j ts js ht hts ih =>
    intro rest n hn
    obtain ⟨n, rfl⟩ : ∃ k, n = k + 1 := ⟨n - 1, by omega⟩
    rw [joinText_cons] at hn ⊢
    cases ts with
    | nil =>
      cases hts
      simp only [if_true, List.append_nil] at hn ⊢
      rw [items, ht.2 _ n (stops_of ']' rest (by simp)) (by omega)]
      simp [skip, ws]
    | cons t' ts =>
      rw [if_neg (by simp)] at hn ⊢
      have := ih (by simp) rest n (by simp at hn ⊢; omega)
      rw [items, List.append_assoc, List.append_assoc, List.singleton_append, ht.2 _ n (stops_of ',' _ (by simp)) (by simp at hn; omega)]
      simp [skip, ws] at this ⊢
      rw [this]

theorem array_reads (ts : List (List Char)) (js : List Json) (h : List.Forall₂ JReads ts js) :
    JReads ('[' :: joinText [','] ts ++ [']']) (.arr js) := by
  refine ⟨⟨'[', _, rfl, by decide, by decide, by decide⟩, ?_⟩
  intro rest n hs hn
  obtain ⟨n, rfl⟩ : ∃ k, n = k + 1 := ⟨n - 1, by omega⟩
  rw [val]
  simp only [List.cons_append, List.append_assoc, List.nil_append]
  rw [skip_of (by decide)]
  simp only []
  cases h with
  | nil => simp [joinText, skip, ws]
  | @cons t j ts js ht hts =>
    rw [if_neg]
    · rw [items_reads (t :: ts) (j :: js) (.cons ht hts) (by simp) rest n (by simp at hn; omega)]
      rfl
    · rw [joinText_cons, List.append_assoc, skip_starts ht.1]
      obtain ⟨c, s, rfl, _, h2, _⟩ := ht.1
      simpa using h2

theorem items_bad (ts : List (List Char)) (h : ∀ t ∈ ts, (∃ j, JReads t j) ∨ JBad t) (hb : ∃ t ∈ ts, JBad t) :
    ∀ rest n, (joinText [','] ts).length + 1 < n → items n (joinText [','] ts ++ ']' :: rest) = none := by
  induction ts with
  | nil => obtain ⟨t, ht, _⟩ := hb; cases ht
  | cons t ts ih =>
    intro rest n hn
    obtain ⟨n, rfl⟩ : ∃ k, n = k + 1 := ⟨n - 1, by omega⟩
    rw [joinText_cons] at hn ⊢
    have key : ∀ u, (match val n (t ++ u) with
        | some (x, r) => (match skip r with
          | ',' :: r => (items n r).map (fun p => (x :: p.1, p.2))
          | ']' :: r => some ([x], r)
          | _ => none)
        | none => none) = items (n + 1) (t ++ u) := by
      intro u
      rw [items]
      cases val n (t ++ u) <;> rfl
    by_cases hbt : JBad t
    · rw [List.append_assoc, ← key]
      cases e : val n (t ++ ((if ts = [] then [] else [','] ++ joinText [','] ts) ++ ']' :: rest)) with
      | none => rfl
      | some p =>
        obtain ⟨j, r⟩ := p
        obtain ⟨r', rfl⟩ := hbt.2 _ _ _ _ (by simp at hn; omega) e
        simp [skip, ws]
    · obtain ⟨j, hj⟩ := (h t (by simp)).resolve_right hbt
      obtain ⟨t', ht', hbt'⟩ := hb
      have ht' : t' ∈ ts := by
        rcases List.mem_cons.1 ht' with rfl | h'
        · exact absurd hbt' hbt
        · exact h'
      have hne : ts ≠ [] := by intro h0; rw [h0] at ht'; cases ht'
      rw [if_neg hne] at hn ⊢
      rw [List.append_assoc, List.append_assoc, List.singleton_append, ← key]
      rw [hj.2 _ n (stops_of ',' _ (by simp)) (by simp at hn; omega)]
      simp only [skip_of (show ws ',' = false by decide)]
      rw [ih (fun x hx => h x (by simp [hx])) ⟨t', ht', hbt'⟩ _ _ (by simp at hn; omega)]
      rfl

theorem starts_of {t : List Char} (h : (∃ j, JReads t j) ∨ JBad t) : JStarts t := by
  rcases h with ⟨j, h⟩ | h <;> exact h.1

theorem array_bad (ts : List (List Char)) (h : ∀ t ∈ ts, (∃ j, JReads t j) ∨ JBad t) (hb : ∃ t ∈ ts, JBad t) :
    JBad ('[' :: joinText [','] ts ++ [']']) := by
  refine ⟨⟨'[', _, rfl, by decide, by decide, by decide⟩, ?_⟩
  intro rest n j r hn
  obtain ⟨n, rfl⟩ : ∃ k, n = k + 1 := ⟨n - 1, by omega⟩
  rw [val]
  simp only [List.cons_append, List.append_assoc, List.nil_append]
  rw [skip_of (by decide)]
  simp only []
  cases ts with
  | nil => obtain ⟨t, ht, _⟩ := hb; cases ht
  | cons t ts =>
    rw [if_neg]
    · rw [items_bad _ h hb _ _ (by simp at hn; omega)]
      intro h; cases h
    · have ht := starts_of (h t (by simp))
      rw [joinText_cons, List.append_assoc, skip_starts ht]
      obtain ⟨c, s, rfl, _, h2, _⟩ := ht
      simpa using h2

/-! Strings -/

theorem string_plain (c : Char) (t : List Char) (h1 : c ≠ '\\') (h2 : c ≠ '"') (h3 : 32 ≤ c.toNat) :
    string (c :: t) = (string t).map (fun p => (c :: p.1, p.2)) := by
  rw [string.eq_def]
  split
  · rename_i h; cases h
  · rename_i h; cases h; exact absurd rfl h1
  · rename_i h; cases h; exact absurd rfl h1
  · rename_i c' t' _ _ h
    cases h
    rw [if_neg h2, if_neg (by simp [h1]; omega)]
    cases string t <;> rfl

theorem string_esc (e : Char) (t : List Char) (h : e ≠ 'u') :
    string ('\\' :: e :: t) = (JRead.escape e).bind (fun x => (string t).map (fun p => (x :: p.1, p.2))) := by
  rw [string.eq_def]
  split
  · rename_i h; cases h
  · rename_i h'; cases h'; exact absurd rfl h
  · rename_i h'; cases h'
    cases JRead.escape e <;> simp
    cases string t <;> rfl
  · rename_i c' t' h1 h2 h
    cases h
    exact absurd rfl (h2 _ _ rfl)

theorem string_u (a b c d : Char) (t : List Char) :
    string ('\\' :: 'u' :: a :: b :: c :: d :: t) = (code a b c d).bind (fun x => (string t).map (fun p => (x :: p.1, p.2))) := by
  rw [string]
  cases code a b c d <;> simp
  cases string t <;> rfl

theorem hex_digitChar : ∀ d, d < 16 → hex (digitChar false d) = some d := by decide

theorem code_hexDigits (c : Char) (h : c.toNat < 65536) (t : List Char) :
    ∃ a b e d, hexDigits 4 c.toNat ++ t = a :: b :: e :: d :: t ∧ code a b e d = some c := by
  refine ⟨digitChar false (c.toNat / 16 / 16 / 16 % 16), digitChar false (c.toNat / 16 / 16 % 16), digitChar false (c.toNat / 16 % 16),
    digitChar false (c.toNat % 16), by simp [hexDigits], ?_⟩
  simp only [code, hex_digitChar _ (Nat.mod_lt _ (show 0 < 16 by omega))]
  have hv : ¬ (0xd800 ≤ c.toNat ∧ c.toNat < 0xe000) := by
    have := c.valid
    simp only [UInt32.isValidChar, Nat.isValidChar] at this
    have e : c.toNat = c.val.toNat := rfl
    omega
  have hn : ((c.toNat / 16 / 16 / 16 % 16 * 16 + c.toNat / 16 / 16 % 16) * 16 + c.toNat / 16 % 16) * 16 + c.toNat % 16 = c.toNat := by omega
  simp only [bind, Option.bind, hn, if_neg hv, Char.ofNat_toNat]

/-- one character of a string -/
theorem string_rune (print : Char → Bool) (hp : ∀ c, print c = true → 32 ≤ c.toNat) (c : Char) (t : List Char) :
    (JsonChar print c → string (quoteRune print c ++ t) = (string t).map (fun p => (c :: p.1, p.2))) ∧
    (¬ JsonChar print c → string (quoteRune print c ++ t) = none) := by
  unfold quoteRune
  by_cases hq : c = '"' ∨ c = '\\'
  · rw [if_pos hq]
    refine ⟨fun _ => ?_, fun h => absurd (Or.inr (Or.inl ?_)) h⟩
    · rcases hq with rfl | rfl <;> exact string_esc _ _ (by decide)
    · rcases hq with rfl | rfl <;> simp
  · rw [if_neg hq]
    push Not at hq
    by_cases hc : print c = true
    · rw [if_pos hc]
      exact ⟨fun _ => string_plain c t hq.2 hq.1 (hp c hc), fun h => absurd (Or.inl hc) h⟩
    · rw [if_neg hc]
      have esc : ∀ e : Char, e ≠ 'u' → JRead.escape e = some c → c ∈ ['"', '\\', '\x08', '\x0c', '\n', '\r', '\t'] →
          (JsonChar print c → string (['\\', e] ++ t) = (string t).map (fun p => (c :: p.1, p.2))) ∧
          (¬ JsonChar print c → string (['\\', e] ++ t) = none) := by
        intro e hu he hm
        refine ⟨fun _ => ?_, fun h => absurd (Or.inr (Or.inl hm)) h⟩
        show string ('\\' :: e :: t) = _
        rw [string_esc e t hu, he]; rfl
      have bad : ∀ (e : Char) (u : List Char), e ≠ 'u' → JRead.escape e = none → ¬ JsonChar print c →
          (JsonChar print c → string (('\\' :: e :: u) ++ t) = (string t).map (fun p => (c :: p.1, p.2))) ∧
          (¬ JsonChar print c → string (('\\' :: e :: u) ++ t) = none) := by
        intro e u hu he hm
        refine ⟨fun h => absurd h hm, fun _ => ?_⟩
        show string ('\\' :: e :: (u ++ t)) = _
        rw [string_esc e _ hu, he]; rfl
      have notj : ∀ n : Nat, c.toNat = n → (n < 32 ∨ n = 127 ∨ 65536 ≤ n) → n ∉ [8, 9, 10, 12, 13] → ¬ JsonChar print c := by
        intro n hn h1 h2 hj
        rcases hj with hj | hj | hj
        · exact hc hj
        · simp only [List.mem_cons, List.not_mem_nil, or_false, not_or] at hj h2
          rcases hj with rfl | rfl | rfl | rfl | rfl | rfl | rfl
          · exact hq.1 rfl
          · exact hq.2 rfl
          all_goals (subst hn; revert h2; decide)
        · omega
      unfold escapeRune
      by_cases h1 : c = '\x07'
      · rw [if_pos h1]; exact bad 'a' [] (by decide) (by decide) (notj 7 (by rw [h1]; decide) (by decide) (by decide))
      rw [if_neg h1]
      by_cases h2 : c = '\x08'
      · rw [if_pos h2]; exact esc 'b' (by decide) (by rw [h2]; decide) (by rw [h2]; decide)
      rw [if_neg h2]
      by_cases h3 : c = '\x0c'
      · rw [if_pos h3]; exact esc 'f' (by decide) (by rw [h3]; decide) (by rw [h3]; decide)
      rw [if_neg h3]
      by_cases h4 : c = '\n'
      · rw [if_pos h4]; exact esc 'n' (by decide) (by rw [h4]; decide) (by rw [h4]; decide)
      rw [if_neg h4]
      by_cases h5 : c = '\r'
      · rw [if_pos h5]; exact esc 'r' (by decide) (by rw [h5]; decide) (by rw [h5]; decide)
      rw [if_neg h5]
      by_cases h6 : c = '\t'
      · rw [if_pos h6]; exact esc 't' (by decide) (by rw [h6]; decide) (by rw [h6]; decide)
      rw [if_neg h6]
      by_cases h7 : c = '\x0b'
      · rw [if_pos h7]; exact bad 'v' [] (by decide) (by decide) (notj 11 (by rw [h7]; decide) (by decide) (by decide))
      rw [if_neg h7]
      have hnot : c.toNat ∉ [8, 9, 10, 12, 13] := by
        intro hm
        simp only [List.mem_cons, List.not_mem_nil, or_false] at hm
        rcases hm with h | h | h | h | h
        · exact h2 (by rw [← Char.ofNat_toNat c, h])
        · exact h6 (by rw [← Char.ofNat_toNat c, h])
        · exact h4 (by rw [← Char.ofNat_toNat c, h])
        · exact h3 (by rw [← Char.ofNat_toNat c, h])
        · exact h5 (by rw [← Char.ofNat_toNat c, h])
      by_cases h8 : c.toNat < 32 ∨ c.toNat = 127
      · rw [if_pos h8]
        exact bad 'x' _ (by decide) (by decide) (notj c.toNat rfl (by omega) hnot)
      rw [if_neg h8]
      by_cases h9 : c.toNat < 65536
      · rw [if_pos h9]
        refine ⟨fun _ => ?_, fun h => absurd (Or.inr (Or.inr ⟨by omega, by omega, h9⟩)) h⟩
        obtain ⟨a, b, e, d, e1, e2⟩ := code_hexDigits c h9 t
        show string ('\\' :: 'u' :: (hexDigits 4 c.toNat ++ t)) = _
        rw [e1, string_u, e2]; rfl
      · rw [if_neg h9]
        exact bad 'U' _ (by decide) (by decide) (notj c.toNat rfl (by omega) hnot)

theorem string_quote (print : Char → Bool) (hp : ∀ c, print c = true → 32 ≤ c.toNat) (s rest : List Char) :
    ((∀ c ∈ s, JsonChar print c) → string (s.flatMap (quoteRune print) ++ '"' :: rest) = some (s, rest)) ∧
    (¬ (∀ c ∈ s, JsonChar print c) → string (s.flatMap (quoteRune print) ++ '"' :: rest) = none) := by
  induction s with
  | nil =>
    refine ⟨fun _ => ?_, fun h => absurd (by simp) h⟩
    rw [List.flatMap_nil, List.nil_append, string]
    · rfl
    all_goals (intros; contradiction)
  | cons c s ih =>
    rw [List.flatMap_cons, List.append_assoc]
    refine ⟨fun h => ?_, fun h => ?_⟩
    · rw [(string_rune print hp c _).1 (h c (by simp)), ih.1 (fun d hd => h d (by simp [hd]))]; rfl
    · by_cases hc : JsonChar print c
      · rw [(string_rune print hp c _).1 hc, ih.2 (fun h' => h (fun d hd => by
          rcases List.mem_cons.1 hd with rfl | hd
          · exact hc
          · exact h' d hd))]; rfl
      · exact (string_rune print hp c _).2 hc

theorem quote_reads (print : Char → Bool) (hp : ∀ c, print c = true → 32 ≤ c.toNat) (s : List Char) :
    ((∀ c ∈ s, JsonChar print c) → JReads (quote print s) (.str s)) ∧ (¬ (∀ c ∈ s, JsonChar print c) → JBad (quote print s)) := by
  have st : JStarts (quote print s) := ⟨'"', _, rfl, by decide, by decide, by decide⟩
  have hv : ∀ n rest, val (n + 1) (quote print s ++ rest) = (string (s.flatMap (quoteRune print) ++ '"' :: rest)).map (fun p => (.str p.1, p.2)) := by
    intro n rest
    rw [val, skip_starts st]
    simp [quote]
  refine ⟨fun h => ⟨st, ?_⟩, fun h => ⟨st, ?_⟩⟩
  · intro rest n _ hn
    obtain ⟨n, rfl⟩ : ∃ k, n = k + 1 := ⟨n - 1, by omega⟩
    rw [hv, (string_quote print hp s rest).1 h]; rfl
  · intro rest n j r hn e
    obtain ⟨n, rfl⟩ : ∃ k, n = k + 1 := ⟨n - 1, by omega⟩
    rw [hv, (string_quote print hp s rest).2 h] at e
    cases e

/-! Numbers -/

theorem digit_jread (c : Char) : digit c = true ↔ Digit c := by
  unfold digit Digit
  exact decide_eq_true_iff

theorem val_number (n : Nat) (c : Char) (s : List Char) (h : Digit c ∨ c = '¯') : val (n + 1) (c :: s) = number (c :: s) := by
  have hc : ws c = false ∧ c ≠ '"' ∧ c ≠ '[' ∧ c ≠ '{' ∧ c ≠ 'n' ∧ c ≠ 't' ∧ c ≠ 'f' := by
    rcases h with h | rfl
    · refine ⟨?_, ?_, ?_, ?_, ?_, ?_, ?_⟩
      · simp only [ws]
        simp only [Bool.or_eq_false_iff, beq_eq_false_iff_ne]
        refine ⟨⟨⟨?_, ?_⟩, ?_⟩, ?_⟩ <;> rintro rfl <;> revert h <;> unfold Digit <;> decide
      all_goals (rintro rfl; revert h; unfold Digit; decide)
    · decide
  rw [val, skip_of hc.1]
  split
  all_goals first
    | rfl
    | (rename_i e; cases e; simp at hc)

theorem value_snoc (t : List Char) (c : Char) : value (t ++ [c]) = value t * 10 + (c.toNat - 48) := by
  simp [value, List.foldl_append]

theorem digitChar_val : ∀ d, d < 10 → (digitChar false d).toNat - 48 = d := by decide

theorem value_natText (u : Nat) : value (natText false 10 u) = u := by
  refine natText_rec false 10 (by decide) (fun u t => value t = u) ?_ ?_ u
  · intro u hu
    simp [value, digitChar_val u hu]
  · intro u hu ih
    rw [value_snoc, ih, digitChar_val _ (Nat.mod_lt _ (by decide))]
    omega

theorem jdigits_append (ds rest : List Char) (h : ∀ c ∈ ds, Digit c) (hr : ∀ c, rest.head? = some c → digit c = false) :
    digits (ds ++ rest) = (ds, rest) := by
  have e : digit = isDec := by
    funext c
    rw [Bool.eq_iff_iff, digit_jread, isDec_iff]
  have := takeWhile_digits ds rest h (fun c hc => by
    have := hr c hc
    rw [← digit_jread, this]; decide)
  unfold digits
  rw [e, this.1, this.2]

theorem exponent_stop (rest : List Char) (h : ∀ c, rest.head? = some c → c ≠ 'e' ∧ c ≠ 'E') : exponent rest = some (0, rest) := by
  cases rest with
  | nil => rfl
  | cons c cs =>
    have := h c rfl
    simp only [exponent]
    rw [if_neg (by tauto)]

theorem fraction_stop (rest : List Char) (h : ∀ c, rest.head? = some c → c ≠ '.') : fraction rest = some ([], rest) := by
  rw [fraction]
  rintro t rfl
  exact absurd rfl (h '.' rfl)

theorem number_nat (n : Nat) (rest : List Char) (hd : ∀ c, rest.head? = some c → digit c = false)
    (h1 : ∀ c, rest.head? = some c → c ≠ '.') (h2 : ∀ c, rest.head? = some c → c ≠ 'e' ∧ c ≠ 'E') :
    number (natText false 10 n ++ rest) = some (.num n 0, rest) := by
  have hne := natText_ne false 10 (by decide) (by decide) n
  have hD := natText_plain n
  have hu : unsigned (natText false 10 n ++ rest) = some (((n : Int), 0), rest) := by
    unfold unsigned
    rw [jdigits_append _ _ hD hd]
    rw [if_neg]
    · simp only [fraction_stop rest h1, exponent_stop rest h2, bind, Option.bind]
      simp [value_natText]
    · rintro (h | ⟨ha, hb⟩)
      · exact hne h
      · obtain ⟨d, cs, hd, he, h0⟩ := natText_head false 10 (by decide) (by decide) n
        by_cases hn : n = 0
        · subst hn; exact hb (by rw [natText_small false 10 0 (by decide)]; rfl)
        · rw [he] at ha
          exact h0 hn ((digitChar_zero false d (by omega)).1 (Option.some.inj ha))
  unfold number
  split
  · rename_i e
    cases hx : natText false 10 n with
    | nil => exact absurd hx hne
    | cons c cs =>
      rw [hx] at e
      simp only [List.cons_append, List.cons.injEq] at e
      have := hD c (by rw [hx]; simp)
      exact absurd e.1 (digit_ne this).1
  · rw [hu]; rfl

theorem starts_digit {c : Char} (s : List Char) (h : Digit c ∨ c = '¯') : JStarts (c :: s) := by
  refine ⟨c, s, rfl, ?_, ?_, ?_⟩
  · rcases h with h | rfl
    · simp only [ws, Bool.or_eq_false_iff, beq_eq_false_iff_ne]
      refine ⟨⟨⟨?_, ?_⟩, ?_⟩, ?_⟩ <;> rintro rfl <;> revert h <;> unfold Digit <;> decide
    · decide
  all_goals
    rintro rfl
    rcases h with h | h
    · revert h; unfold Digit; decide
    · revert h; decide

theorem int_reads (env : TextEnv V O) (n : Nat) : JReads (itemText env (-2) (.num (.int n))) (.num n 0) := by
  have e : itemText env (-2) (.num (.int n)) = natText false 10 n := by
    show intText (-2) n = _
    rw [intText_plain (-2) (by decide) (by decide), if_neg (by omega)]; rfl
  rw [e]
  obtain ⟨d, cs, hd, he, h0⟩ := natText_head false 10 (by decide) (by decide) n
  have hD : Digit (digitChar false d) := digitChar_digit false d hd
  refine ⟨by rw [he]; exact starts_digit _ (Or.inl hD), ?_⟩
  intro rest k hs hk
  obtain ⟨k, rfl⟩ : ∃ j, k = j + 1 := ⟨k - 1, by omega⟩
  have := number_nat n rest (fun c hc => (hs c hc).1) (fun c hc => (hs c hc).2.1) (fun c hc => (hs c hc).2.2)
  rw [he] at this ⊢
  rw [List.cons_append, val_number _ _ _ (Or.inl hD)]
  exact this

theorem neg_bad (env : TextEnv V O) (i : Int) (h : i < 0) : JBad (itemText env (-2) (.num (.int i))) := by
  have e : itemText env (-2) (.num (.int i)) = '¯' :: natText false 10 i.natAbs := by
    show intText (-2) i = _
    rw [intText_plain (-2) (by decide) (by decide), if_pos h]
  rw [e]
  refine ⟨starts_digit _ (Or.inr rfl), ?_⟩
  intro rest n j r hn hv
  obtain ⟨n, rfl⟩ : ∃ k, n = k + 1 := ⟨n - 1, by omega⟩
  rw [List.cons_append, val_number _ _ _ (Or.inr rfl)] at hv
  simp [number, unsigned, digits, digit] at hv

theorem bool_bad (env : TextEnv V O) (b : Bool) : JBad (itemText env (-2) (.num (.bool b))) := by
  have e : itemText env (-2) (.num (.bool b)) = [if b then '1' else '0', 'b'] := by cases b <;> rfl
  have hD : Digit (if b then '1' else '0') := by cases b <;> (unfold Digit; decide)
  rw [e]
  refine ⟨starts_digit _ (Or.inl hD), ?_⟩
  intro rest n j r hn hv
  obtain ⟨n, rfl⟩ : ∃ k, n = k + 1 := ⟨n - 1, by omega⟩
  rw [List.cons_append, val_number _ _ _ (Or.inl hD)] at hv
  have := number_nat (if b then 1 else 0) ('b' :: rest) (by intro c hc; cases hc; decide) (by intro c hc; cases hc; decide) (by intro c hc; cases hc; decide)
  have e2 : natText false 10 (if b then 1 else 0) = [if b then '1' else '0'] := by cases b <;> rfl
  rw [e2] at this
  have h3 := hv.symm.trans this
  cases h3
  exact ⟨_, rfl⟩

/-! Members -/

theorem members_reads (print : Char → Bool) (hp : ∀ c, print c = true → 32 ≤ c.toNat) :
    ∀ (es : List (List Char × List Char × Json)), es ≠ [] → (∀ e ∈ es, (∀ c ∈ e.1, JsonChar print c) ∧ JReads e.2.1 e.2.2) →
    ∀ rest n, (joinText [','] (es.map (fun e => quote print e.1 ++ ':' :: e.2.1))).length + 1 < n →
      members n (joinText [','] (es.map (fun e => quote print e.1 ++ ':' :: e.2.1)) ++ '}' :: rest) = some (es.map (fun e => (e.1, e.2.2)), rest) := by
  intro es
  induction es with
  | nil => intro h; exact absurd rfl h
  | cons e es ih =>
    intro _ h rest n hn
    obtain ⟨k, t, j⟩ := e
    obtain ⟨hk, ht⟩ := h _ (List.mem_cons_self ..)
    dsimp only at hk ht
    obtain ⟨n, rfl⟩ : ∃ i, n = i + 1 := ⟨n - 1, by omega⟩
    rw [List.map_cons, joinText_cons] at hn ⊢
    have step : ∀ u, members (n + 1) ((quote print k ++ ':' :: t) ++ u) =
        (match val n (t ++ u) with
        | some (x, w) => (match skip w with
          | ',' :: r => (members n r).map (fun p => ((k, x) :: p.1, p.2))
          | '}' :: r => some ([(k, x)], r)
          | _ => none)
        | none => none) := by
      intro u
      rw [members]
      have : skip ((quote print k ++ ':' :: t) ++ u) = '"' :: (k.flatMap (quoteRune print) ++ '"' :: (':' :: (t ++ u))) := by
        simp [quote, skip, ws]
      rw [this]
      simp only [(string_quote print hp k _).1 hk, bind, Option.bind, skip_of (show ws ':' = false by decide)]
      cases val n (t ++ u) <;> rfl
    rw [List.append_assoc, step]
    cases es with
    | nil =>
      simp only [List.map_nil, if_true, List.nil_append]
      rw [ht.2 _ n (stops_of '}' rest (by simp)) (by simp [quote] at hn; omega)]
      simp [skip, ws]
    | cons e' es =>
      rw [if_neg (by simp)] at hn ⊢
      rw [List.append_assoc, List.singleton_append, ht.2 _ n (stops_of ',' _ (by simp)) (by simp [quote] at hn; omega)]
      simp only [skip_of (show ws ',' = false by decide)]
      rw [ih (by simp) (fun e he => h e (List.mem_cons_of_mem _ he)) rest n (by simp [quote] at hn ⊢; omega)]
      rfl

theorem object_reads (print : Char → Bool) (hp : ∀ c, print c = true → 32 ≤ c.toNat) (es : List (List Char × List Char × Json))
    (h : ∀ e ∈ es, (∀ c ∈ e.1, JsonChar print c) ∧ JReads e.2.1 e.2.2) :
    JReads ('{' :: joinText [','] (es.map (fun e => quote print e.1 ++ ':' :: e.2.1)) ++ ['}']) (.obj (es.map (fun e => (e.1, e.2.2)))) := by
  refine ⟨⟨'{', _, rfl, by decide, by decide, by decide⟩, ?_⟩
  intro rest n hs hn
  obtain ⟨n, rfl⟩ : ∃ k, n = k + 1 := ⟨n - 1, by omega⟩
  rw [val]
  simp only [List.cons_append, List.append_assoc, List.nil_append]
  rw [skip_of (by decide)]
  simp only []
  cases es with
  | nil => simp [joinText, skip, ws]
  | cons e es =>
    rw [if_neg]
    · rw [members_reads print hp (e :: es) (by simp) h rest n (by simp at hn ⊢; omega)]
      rfl
    · rw [List.map_cons, joinText_cons]
      simp [quote, skip, ws]

/-- a member that is not read: the key is no string of JSON characters, or the value is not read -/
theorem members_bad (print : Char → Bool) (hp : ∀ c, print c = true → 32 ≤ c.toNat) :
    ∀ (es : List (List Char × List Char)),
    (∀ e ∈ es, ((∃ s, e.1 = quote print s) ∨ ∃ c u, e.1 = c :: u ∧ ws c = false ∧ c ≠ '"') ∧ ((∃ j, JReads e.2 j) ∨ JBad e.2)) →
    (∃ e ∈ es, (∀ s, e.1 = quote print s → ¬ ∀ c ∈ s, JsonChar print c) ∨ JBad e.2) →
    ∀ rest n, (joinText [','] (es.map (fun e => e.1 ++ ':' :: e.2))).length + 1 < n →
      members n (joinText [','] (es.map (fun e => e.1 ++ ':' :: e.2)) ++ '}' :: rest) = none := by
  intro es
  induction es with
  | nil => rintro _ ⟨e, he, _⟩; cases he
  | cons e es ih =>
    intro h hb rest n hn
    obtain ⟨k, t⟩ := e
    obtain ⟨hk, ht⟩ := h _ (List.mem_cons_self ..)
    dsimp only at hk ht
    obtain ⟨n, rfl⟩ : ∃ i, n = i + 1 := ⟨n - 1, by omega⟩
    rw [List.map_cons, joinText_cons] at hn ⊢
    rcases hk with ⟨s, rfl⟩ | ⟨c, u, rfl, hw, hc⟩
    · have pre : ∀ u, members (n + 1) ((quote print s ++ ':' :: t) ++ u) =
          (string (s.flatMap (quoteRune print) ++ '"' :: (':' :: (t ++ u)))).bind (fun p => match skip p.2 with
            | ':' :: v => (val n v).bind (fun q => match skip q.2 with
              | ',' :: r => (members n r).map (fun m => ((p.1, q.1) :: m.1, m.2))
              | '}' :: r => some ([(p.1, q.1)], r)
              | _ => none)
            | _ => none) := by
        intro u
        rw [members]
        have : skip ((quote print s ++ ':' :: t) ++ u) = '"' :: (s.flatMap (quoteRune print) ++ '"' :: (':' :: (t ++ u))) := by
          simp [quote, skip, ws]
        rw [this]
        rfl
      rw [List.append_assoc, pre]
      by_cases hs : ∀ c ∈ s, JsonChar print c
      · rw [(string_quote print hp s _).1 hs]
        simp only [Option.bind, skip_of (show ws ':' = false by decide)]
        by_cases hbt : JBad t
        · cases e : val n (t ++ ((if List.map (fun e => e.1 ++ ':' :: e.2) es = [] then [] else [','] ++ joinText [','] (List.map (fun e => e.1 ++ ':' :: e.2) es)) ++ '}' :: rest)) with
          | none => rfl
          | some p =>
            obtain ⟨j, r⟩ := p
            obtain ⟨r', rfl⟩ := hbt.2 _ _ _ _ (by simp [quote] at hn; omega) e
            simp [skip, ws]
        · obtain ⟨j, hj⟩ := ht.resolve_right hbt
          obtain ⟨e', he', hbe'⟩ := hb
          have he'' : e' ∈ es := by
            rcases List.mem_cons.1 he' with rfl | h'
            · rcases hbe' with hb1 | hb1
              · exact absurd hs (hb1 s rfl)
              · exact absurd hb1 hbt
            · exact h'
          have hne : List.map (fun e => e.1 ++ ':' :: e.2) es ≠ [] := by
            intro h0; rw [List.map_eq_nil_iff] at h0; rw [h0] at he''; cases he''
          rw [if_neg hne] at hn ⊢
          rw [List.append_assoc, List.singleton_append, hj.2 _ n (stops_of ',' _ (by simp)) (by simp [quote] at hn; omega)]
          simp only [skip_of (show ws ',' = false by decide)]
          rw [ih (fun e he => h e (List.mem_cons_of_mem _ he)) ⟨e', he'', hbe'⟩ rest n (by simp [quote] at hn ⊢; omega)]
          rfl
      · rw [(string_quote print hp s _).2 hs]; rfl
    · rw [members]
      have : ∀ v, skip ((c :: u ++ ':' :: t) ++ v) = c :: (u ++ ':' :: t ++ v) := by
        intro v; simp [skip, hw]
      rw [List.append_assoc, this]
      split
      · rename_i e; cases e; exact absurd rfl hc
      · rfl

theorem object_bad (print : Char → Bool) (hp : ∀ c, print c = true → 32 ≤ c.toNat) (es : List (List Char × List Char))
    (h : ∀ e ∈ es, ((∃ s, e.1 = quote print s) ∨ ∃ c u, e.1 = c :: u ∧ ws c = false ∧ c ≠ '"') ∧ ((∃ j, JReads e.2 j) ∨ JBad e.2))
    (hx : ∀ e ∈ es, JStarts e.1)
    (hb : ∃ e ∈ es, (∀ s, e.1 = quote print s → ¬ ∀ c ∈ s, JsonChar print c) ∨ JBad e.2) :
    JBad ('{' :: joinText [','] (es.map (fun e => e.1 ++ ':' :: e.2)) ++ ['}']) := by
  refine ⟨⟨'{', _, rfl, by decide, by decide, by decide⟩, ?_⟩
  intro rest n j r hn
  obtain ⟨n, rfl⟩ : ∃ k, n = k + 1 := ⟨n - 1, by omega⟩
  rw [val]
  simp only [List.cons_append, List.append_assoc, List.nil_append]
  rw [skip_of (by decide)]
  simp only []
  cases es with
  | nil => obtain ⟨t, ht, _⟩ := hb; cases ht
  | cons e es =>
    rw [if_neg]
    · rw [members_bad print hp _ h hb _ _ (by simp at hn ⊢; omega)]
      intro h; cases h
    · have ht := hx e (by simp)
      rw [List.map_cons, joinText_cons, List.append_assoc, List.append_assoc, skip_starts ht]
      obtain ⟨c, s, he, _, _, h2⟩ := ht
      rw [he]
      simpa using h2

/-! Arrays -/

theorem jsonText_reads (f : Nat → Json) : ∀ (ds : List Nat) (ts : List (List Char)) (off : Nat), ds ≠ [] → size ds ≤ ts.length →
    (∀ i, i < size ds → ∃ t, ts[i]? = some t ∧ JReads t (f (off + i))) →
    ∃ t, jsonText ds ts = .ok t ∧ JReads t (nested ds (fun p => f (off + flat ds p)))
  | [], _, _, h, _, _ => absurd rfl h
  | [d], ts, off, _, hl, h => by
    have hs : size [d] = d := by simp [size]
    rw [hs] at hl h
    refine ⟨_, by rw [jsonText, if_pos hl], ?_⟩
    refine array_reads _ _ ?_
    rw [List.forall₂_iff_get]
    refine ⟨by simp; omega, ?_⟩
    intro i h1 h2
    have hi : i < d := by simpa using h2
    obtain ⟨t, ht, hr⟩ := h i hi
    have e : (ts.take d).get ⟨i, h1⟩ = t := by
      have : i < ts.length := by omega
      rw [List.getElem?_eq_getElem this] at ht
      simpa using ht
    rw [e]
    simpa [flat, size, nested] using hr
  | d :: e :: ds, ts, off, _, hl, h => by
    have hne : e :: ds ≠ [] := by simp
    have hp : prod (e :: ds) = size (e :: ds) := prod_eq_size hne
    have hs : size (d :: e :: ds) = d * size (e :: ds) := rfl
    rw [hs] at hl h
    have hle : ∀ i, i < d → i * size (e :: ds) + size (e :: ds) ≤ d * size (e :: ds) := by
      intro i hi
      calc i * size (e :: ds) + size (e :: ds) = (i + 1) * size (e :: ds) := by ring
        _ ≤ d * size (e :: ds) := Nat.mul_le_mul_right _ hi
    have part : ∀ i, i < d → ∃ t, jsonText (e :: ds) (ts.drop (i * size (e :: ds))) = .ok t ∧
        JReads t (nested (e :: ds) (fun p => f (off + i * size (e :: ds) + flat (e :: ds) p))) := by
      intro i hi
      have := hle i hi
      refine jsonText_reads f (e :: ds) _ (off + i * size (e :: ds)) hne (by simp; omega) ?_
      intro k hk
      obtain ⟨t, ht, hr⟩ := h (i * size (e :: ds) + k) (by omega)
      exact ⟨t, by rw [List.getElem?_drop]; exact ht, by rw [Nat.add_assoc]; exact hr⟩
    choose! g hg using part
    refine ⟨'[' :: joinText [','] ((List.range d).map g) ++ [']'], ?_, ?_⟩
    · rw [jsonText, hp, mapM_ok_text (List.range d) _ g]
      · rfl
      · intro i hi
        have hi := List.mem_range.1 hi
        have := hle i hi
        rw [if_pos (by omega)]
        exact (hg i hi).1
    · refine array_reads _ _ ?_
      rw [List.forall₂_map_left_iff, List.forall₂_map_right_iff]
      rw [List.forall₂_same]
      intro i hi
      have := (hg i (List.mem_range.1 hi)).2
      simpa [flat, Nat.add_assoc] using this

theorem jsonText_bad : ∀ (ds : List Nat) (ts : List (List Char)), ds ≠ [] → size ds ≤ ts.length →
    (∀ t ∈ ts, (∃ j, JReads t j) ∨ JBad t) → (∃ i t, i < size ds ∧ ts[i]? = some t ∧ JBad t) →
    ∃ t, jsonText ds ts = .ok t ∧ JBad t
  | [], _, h, _, _, _ => absurd rfl h
  | [d], ts, _, hl, h, hb => by
    have hs : size [d] = d := by simp [size]
    rw [hs] at hl hb
    refine ⟨_, by rw [jsonText, if_pos hl], ?_⟩
    refine array_bad _ (fun t ht => h t (List.mem_of_mem_take ht)) ?_
    obtain ⟨i, t, hi, ht, hbt⟩ := hb
    exact ⟨t, List.mem_of_getElem? (i := i) (by rw [List.getElem?_take, if_pos hi]; exact ht), hbt⟩
  | d :: e :: ds, ts, _, hl, h, hb => by
    classical
    have hne : e :: ds ≠ [] := by simp
    have hp : prod (e :: ds) = size (e :: ds) := prod_eq_size hne
    have hs : size (d :: e :: ds) = d * size (e :: ds) := rfl
    rw [hs] at hl hb
    have hle : ∀ i, i < d → i * size (e :: ds) + size (e :: ds) ≤ d * size (e :: ds) := by
      intro i hi
      calc i * size (e :: ds) + size (e :: ds) = (i + 1) * size (e :: ds) := by ring
        _ ≤ d * size (e :: ds) := Nat.mul_le_mul_right _ hi
    have bad : ∀ i, i < d → (∃ k t, k < size (e :: ds) ∧ ts[i * size (e :: ds) + k]? = some t ∧ JBad t) →
        ∃ t, jsonText (e :: ds) (ts.drop (i * size (e :: ds))) = .ok t ∧ JBad t := by
      rintro i hi ⟨k, t, hk, ht, hbt⟩
      have := hle i hi
      exact jsonText_bad (e :: ds) _ hne (by simp; omega) (fun t ht => h t (List.mem_of_mem_drop ht))
        ⟨k, t, hk, by rw [List.getElem?_drop]; exact ht, hbt⟩
    have part : ∀ i, i < d → ∃ t, jsonText (e :: ds) (ts.drop (i * size (e :: ds))) = .ok t ∧ ((∃ j, JReads t j) ∨ JBad t) := by
      intro i hi
      have := hle i hi
      by_cases hx : ∃ k t, k < size (e :: ds) ∧ ts[i * size (e :: ds) + k]? = some t ∧ JBad t
      · obtain ⟨t, h1, h2⟩ := bad i hi hx
        exact ⟨t, h1, Or.inr h2⟩
      · have hr : ∀ k, k < size (e :: ds) → ∃ j, ∃ t, (ts.drop (i * size (e :: ds)))[k]? = some t ∧ JReads t j := by
          intro k hk
          have hlt : i * size (e :: ds) + k < ts.length := by omega
          have hg := List.getElem?_eq_getElem hlt
          obtain ⟨j, hj⟩ := (h _ (List.mem_of_getElem? hg)).resolve_right (fun hb => hx ⟨k, _, hk, hg, hb⟩)
          exact ⟨j, _, by rw [List.getElem?_drop]; exact hg, hj⟩
        have : Nonempty Json := ⟨.null⟩
        choose! f hf using hr
        obtain ⟨t, h1, h2⟩ := jsonText_reads f (e :: ds) (ts.drop (i * size (e :: ds))) 0 hne (by simp; omega)
          (fun k hk => by rw [Nat.zero_add]; exact hf k hk)
        exact ⟨t, h1, Or.inl ⟨_, h2⟩⟩
    choose! g hg using part
    refine ⟨'[' :: joinText [','] ((List.range d).map g) ++ [']'], ?_, ?_⟩
    · rw [jsonText, hp, mapM_ok_text (List.range d) _ g]
      · rfl
      · intro i hi
        have hi := List.mem_range.1 hi
        have := hle i hi
        rw [if_pos (by omega)]
        exact (hg i hi).1
    · refine array_bad _ ?_ ?_
      · intro t ht
        obtain ⟨i, hi, rfl⟩ := List.mem_map.1 ht
        exact (hg i (List.mem_range.1 hi)).2
      · obtain ⟨i, t, hi, ht, hbt⟩ := hb
        have hpos : 0 < size (e :: ds) := by
          rcases Nat.eq_zero_or_pos (size (e :: ds)) with h0 | h0
          · rw [h0] at hi; simp at hi
          · exact h0
        have hid : i / size (e :: ds) < d := Nat.div_lt_of_lt_mul (by rw [Nat.mul_comm]; exact hi)
        obtain ⟨u, h1, h2⟩ := bad _ hid ⟨i % size (e :: ds), t, Nat.mod_lt _ hpos, by rw [Nat.mul_comm, Nat.div_add_mod]; exact ht, hbt⟩
        have h3 := (hg _ hid).1
        rw [h1] at h3
        cases h3
        exact ⟨_, List.mem_map.2 ⟨_, List.mem_range.2 hid, rfl⟩, h2⟩

theorem treeTexts_ok (env : TextEnv V O) (g : TVal V O → List Char) (xs : List (TVal V O)) (h : ∀ x ∈ xs, treeText env x = .ok (g x)) :
    treeTexts env xs = .ok (xs.map g) := by
  induction xs with
  | nil => rfl
  | cons x xs ih =>
    rw [treeTexts, h x (by simp), ih (fun y hy => h y (by simp [hy]))]
    rfl

theorem entryTexts_ok (env : TextEnv V O) (g : TVal V O → List Char) (es : List (TVal V O × TVal V O))
    (h : ∀ e ∈ es, treeText env e.1 = .ok (g e.1) ∧ treeText env e.2 = .ok (g e.2)) :
    entryTexts env es = .ok (es.map (fun e => g e.1 ++ ':' :: g e.2)) := by
  induction es with
  | nil => rfl
  | cons e es ih =>
    obtain ⟨k, v⟩ := e
    rw [entryTexts, (h (k, v) (by simp)).1, (h (k, v) (by simp)).2, ih (fun y hy => h y (by simp [hy]))]
    rfl

theorem jsonMembers_map (es : List (TVal V O × TVal V O)) (h : ∀ e ∈ es, ∃ s : String, e.1 = .item (.str s)) (k : TVal V O → List Char)
    (hk : ∀ s : String, k (.item (.str s)) = s.toList) : jsonMembers es = es.map (fun e => (k e.1, e.2.json)) := by
  induction es with
  | nil => rfl
  | cons e es ih =>
    obtain ⟨s, hs⟩ := h e (by simp)
    obtain ⟨a, v⟩ := e
    cases hs
    rw [jsonMembers, ih (fun y hy => h y (by simp [hy]))]
    simp [hk]

theorem jsonText_head (ds : List Nat) (ts : List (List Char)) (t : List Char) (h : jsonText ds ts = .ok t) : t.head? ≠ some '"' := by
  rw [jsonText.eq_def] at h
  split at h
  · cases h
  · split at h
    · cases h; intro h; cases h
    · cases h
  · cases hx : (List.mapM (m := Res) _ _ : Res (List (List Char))) with
    | error e => rw [hx] at h; cases h
    | ok ps => rw [hx] at h; cases h; intro h; cases h

theorem reads_not_bad {t : List Char} {j : Json} (h : JReads t j) (hb : JBad t) : False := by
  have h1 := h.2 [] (t.length + 1) (by intro c hc; cases hc) (by omega)
  obtain ⟨r, hr⟩ := hb.2 [] (t.length + 1) _ _ (by omega) h1
  cases hr

/-- Every plain value has a text, which is read as the JSON value if it has one, and not at all otherwise. -/
theorem tree_status (env : TextEnv V O) (hp : ∀ c, env.print c = true → 32 ≤ c.toNat) (v : TVal V O) :
    JPlain v → ∃ t, treeText env v = .ok t ∧ (JGood env.print v → JReads t v.json) ∧ (¬ JGood env.print v → JBad t) ∧
      (t.head? = some '"' → ∃ s, v = .item (.str s)) := by
  refine TVal.ind (P := fun v => JPlain v → ∃ t, treeText env v = .ok t ∧ (JGood env.print v → JReads t v.json) ∧ (¬ JGood env.print v → JBad t) ∧
      (t.head? = some '"' → ∃ s, v = .item (.str s)))
    ?_ ?_ ?_ ?_ ?_ v
  · intro x hx
    cases hx with
    | bool b =>
      refine ⟨_, by rw [treeText], fun h => (by cases h), fun _ => bool_bad env b, ?_⟩
      intro h; cases b <;> cases h
    | int i =>
      refine ⟨_, by rw [treeText], fun h => ?_, fun h => ?_, ?_⟩
      · cases h with
        | int n => rw [TVal.json]; exact int_reads env n
      · refine neg_bad env i ?_
        by_contra h0
        obtain ⟨n, rfl⟩ := Int.eq_ofNat_of_zero_le (Int.not_lt.1 h0)
        exact h (.int n)
      · intro hh
        exfalso
        rw [show itemText env (-2) (.num (.int i)) = intText (-2) i from rfl, intText_plain (-2) (by decide) (by decide)] at hh
        obtain ⟨d, cs, hd, he, _⟩ := natText_head false 10 (by decide) (by decide) i.natAbs
        rw [he] at hh
        split at hh
        · cases hh
        · have := digitChar_digit false d hd
          rw [Option.some.inj hh] at this
          revert this; unfold Digit; decide
    | str s =>
      refine ⟨_, by rw [treeText], fun h => ?_, fun h => ?_, fun _ => ⟨s, rfl⟩⟩
      · cases h with
        | str _ hs => rw [TVal.json]; exact (quote_reads env.print hp s.toList).1 hs
      · exact (quote_reads env.print hp s.toList).2 (fun hs => h (.str s hs))
  · intro h; cases h
  · intro ds xs ih hx
    cases hx with
    | arr _ _ hne hl hxs =>
    have := fun x hx => ih x hx (hxs x hx)
    choose! g hg using this
    rw [treeText, treeTexts_ok env g xs (fun x hx => (hg x hx).1)]
    show ∃ t, jsonText ds (xs.map g) = .ok t ∧ _
    by_cases hgood : ∀ x ∈ xs, JGood env.print x
    · obtain ⟨t, h1, h2⟩ := jsonText_reads (fun i => (jsons xs).getD i .null) ds (xs.map g) 0 hne (by simp [hl]) (by
        intro i hi
        have hi : i < xs.length := by omega
        refine ⟨g xs[i], by simp [hi], ?_⟩
        have := (hg xs[i] (List.getElem_mem hi)).2.1 (hgood _ (List.getElem_mem hi))
        simpa [jsons_map, List.getD, hi] using this)
      refine ⟨t, h1, fun _ => ?_, fun h => absurd (.arr ds xs hgood) h, fun h => absurd h (jsonText_head ds _ t h1)⟩
      rw [TVal.json]
      simpa using h2
    · push Not at hgood
      obtain ⟨x, hx, hxb⟩ := hgood
      obtain ⟨i, hi⟩ := List.getElem?_of_mem hx
      have hil : i < xs.length := (List.getElem?_eq_some_iff.1 hi).1
      obtain ⟨t, h1, h2⟩ := jsonText_bad ds (xs.map g) hne (by simp [hl]) (by
        intro t ht
        obtain ⟨y, hy, rfl⟩ := List.mem_map.1 ht
        by_cases hyg : JGood env.print y
        · exact Or.inl ⟨_, (hg y hy).2.1 hyg⟩
        · exact Or.inr ((hg y hy).2.2.1 hyg)) ⟨i, g x, by omega, by simp [hi], (hg x hx).2.2.1 hxb⟩
      refine ⟨t, h1, fun h => ?_, fun _ => h2, fun h => absurd h (jsonText_head ds _ t h1)⟩
      cases h with
      | arr _ _ hxs' => exact absurd (hxs' x hx) hxb
  · intro xs ih hx
    cases hx with
    | list _ hxs =>
    have := fun x hx => ih x hx (hxs x hx)
    choose! g hg using this
    rw [treeText, treeTexts_ok env g xs (fun x hx => (hg x hx).1)]
    refine ⟨_, rfl, fun h => ?_, fun h => ?_, fun h => by cases h⟩
    · cases h with
      | list _ hgood =>
      rw [TVal.json, jsons_map]
      refine array_reads _ _ ?_
      rw [List.forall₂_map_left_iff, List.forall₂_map_right_iff, List.forall₂_same]
      exact fun x hx => (hg x hx).2.1 (hgood x hx)
    · refine array_bad _ ?_ ?_
      · intro t ht
        obtain ⟨y, hy, rfl⟩ := List.mem_map.1 ht
        by_cases hyg : JGood env.print y
        · exact Or.inl ⟨_, (hg y hy).2.1 hyg⟩
        · exact Or.inr ((hg y hy).2.2.1 hyg)
      · have : ∃ x ∈ xs, ¬ JGood env.print x := by
          by_contra hc
          push Not at hc
          exact h (.list xs hc)
        obtain ⟨x, hx, hxb⟩ := this
        exact ⟨g x, List.mem_map.2 ⟨x, hx, rfl⟩, (hg x hx).2.2.1 hxb⟩
  · intro es ih hx
    cases hx with
    | dict _ hk hv =>
    have hst : ∀ x, (x ∈ es.map Prod.fst ∨ x ∈ es.map Prod.snd) → ∃ t, treeText env x = .ok t ∧ (JGood env.print x → JReads t x.json) ∧
        (¬ JGood env.print x → JBad t) ∧ (t.head? = some '"' → ∃ s, x = .item (.str s)) := by
      rintro x (hx | hx) <;> obtain ⟨e, he, rfl⟩ := List.mem_map.1 hx
      · exact (ih e he).1 (hk e he)
      · exact (ih e he).2 (hv e he)
    choose! g hg using hst
    have h1 : ∀ e ∈ es, treeText env e.1 = .ok (g e.1) ∧ (JGood env.print e.1 → JReads (g e.1) e.1.json) ∧
        (¬ JGood env.print e.1 → JBad (g e.1)) ∧ ((g e.1).head? = some '"' → ∃ s, e.1 = .item (.str s)) :=
      fun e he => hg e.1 (Or.inl (List.mem_map.2 ⟨e, he, rfl⟩))
    have h2 : ∀ e ∈ es, treeText env e.2 = .ok (g e.2) ∧ (JGood env.print e.2 → JReads (g e.2) e.2.json) ∧
        (¬ JGood env.print e.2 → JBad (g e.2)) ∧ ((g e.2).head? = some '"' → ∃ s, e.2 = .item (.str s)) :=
      fun e he => hg e.2 (Or.inr (List.mem_map.2 ⟨e, he, rfl⟩))
    have hq : ∀ e ∈ es, ∀ s : String, e.1 = .item (.str s) → g e.1 = quote env.print s.toList := by
      intro e he s hs
      have := (h1 e he).1
      rw [hs, treeText] at this
      rw [hs]
      exact (Except.ok.inj this).symm
    rw [treeText, entryTexts_ok env g es (fun e he => ⟨(h1 e he).1, (h2 e he).1⟩)]
    refine ⟨_, rfl, fun h => ?_, fun h => ?_, fun h => by cases h⟩
    · cases h with
      | dict _ hgk hgv =>
      let kt : TVal V O → List Char := fun k => match k with | .item (.str s) => s.toList | _ => []
      have hkt : ∀ s : String, kt (.item (.str s)) = s.toList := fun _ => rfl
      have := object_reads env.print hp (es.map (fun e => (kt e.1, g e.2, e.2.json))) (by
        intro x hx
        obtain ⟨e, he, rfl⟩ := List.mem_map.1 hx
        obtain ⟨s, hs, hc⟩ := hgk e he
        refine ⟨?_, (h2 e he).2.1 (hgv e he)⟩
        show ∀ c ∈ kt e.1, _
        rw [hs]; exact hc)
      rw [TVal.json, jsonMembers_map es (fun e he => (hgk e he).imp (fun s h => h.1)) kt hkt]
      rw [List.map_map, List.map_map] at this
      have e1 : es.map ((fun e : List Char × List Char × Json => quote env.print e.1 ++ ':' :: e.2.1) ∘ fun e => (kt e.1, g e.2, e.2.json)) =
          es.map (fun e => g e.1 ++ ':' :: g e.2) := by
        refine List.map_congr_left (fun e he => ?_)
        obtain ⟨s, hs, _⟩ := hgk e he
        rw [hq e he s hs]
        simp [hs, kt]
      rw [e1] at this
      exact this
    · have hbad : ∃ e ∈ es, (∀ s : String, e.1 = .item (.str s) → ¬ ∀ c ∈ s.toList, JsonChar env.print c) ∨ ¬ JGood env.print e.2 := by
        by_contra hc
        push Not at hc
        exact h (.dict es (fun e he => (hc e he).1) (fun e he => (hc e he).2))
      have := object_bad env.print hp (es.map (fun e => (g e.1, g e.2))) (by
        intro x hx
        obtain ⟨e, he, rfl⟩ := List.mem_map.1 hx
        refine ⟨?_, ?_⟩
        · by_cases hstr : ∃ s, e.1 = .item (.str s)
          · obtain ⟨s, hs⟩ := hstr
            exact Or.inl ⟨s.toList, hq e he s hs⟩
          · right
            have hS : JStarts (g e.1) := by
              by_cases hgd : JGood env.print e.1
              · exact ((h1 e he).2.1 hgd).1
              · exact ((h1 e he).2.2.1 hgd).1
            obtain ⟨c, u, hcu, hw, _⟩ := hS
            refine ⟨c, u, hcu, hw, ?_⟩
            rintro rfl
            exact hstr ((h1 e he).2.2.2 (by rw [hcu]; rfl))
        · by_cases hgd : JGood env.print e.2
          · exact Or.inl ⟨_, (h2 e he).2.1 hgd⟩
          · exact Or.inr ((h2 e he).2.2.1 hgd)) (by
        intro x hx
        obtain ⟨e, he, rfl⟩ := List.mem_map.1 hx
        by_cases hgd : JGood env.print e.1
        · exact ((h1 e he).2.1 hgd).1
        · exact ((h1 e he).2.2.1 hgd).1) (by
        obtain ⟨e, he, hb⟩ := hbad
        refine ⟨(g e.1, g e.2), List.mem_map.2 ⟨e, he, rfl⟩, ?_⟩
        rcases hb with hb | hb
        · left
          intro s hs hgood
          obtain ⟨s0, hs0⟩ := (h1 e he).2.2.2 (by dsimp only at hs; rw [hs]; rfl)
          have hbd := (quote_reads env.print hp s0.toList).2 (hb s0 hs0)
          rw [← hq e he s0 hs0] at hbd
          have hrd := (quote_reads env.print hp s).1 hgood
          rw [← hs] at hrd
          exact reads_not_bad hrd hbd
        · exact Or.inr ((h2 e he).2.2.1 hb))
      rw [List.map_map] at this
      exact this

/-- **C96.** The text of a value at PP ¯2 is a JSON text with the same value exactly if the value consists of integers that are not
negative, strings of characters JSON can show, arrays, lists, and dictionaries with such strings as keys, nested to any depth.  Otherwise it
is no JSON text. -/
theorem C96_json (env : TextEnv V O) (hp : ∀ c, env.print c = true → 32 ≤ c.toNat) (v : TVal V O) (hv : JPlain v) :
    ∃ t, treeText env v = .ok t ∧ (JGood env.print v → readJson t = some v.json) ∧ (¬ JGood env.print v → readJson t = none) := by
  obtain ⟨t, h1, h2, h3, _⟩ := tree_status env hp v hv
  refine ⟨t, h1, fun h => ?_, fun h => ?_⟩
  · have := (h2 h).2 [] (t.length + 1) (by intro c hc; cases hc) (by omega)
    rw [List.append_nil] at this
    rw [readJson, this]; rfl
  · unfold readJson
    cases e : val (t.length + 1) t with
    | none => rfl
    | some p =>
      obtain ⟨j, r⟩ := p
      obtain ⟨r', rfl⟩ := (h3 h).2 [] _ j r (Nat.lt_succ_self _) (by rw [List.append_nil]; exact e)
      simp [skip, ws]

/-- **C96.** Values with the same text have the same JSON value. -/
theorem C96_distinct (env : TextEnv V O) (hp : ∀ c, env.print c = true → 32 ≤ c.toNat) (v w : TVal V O) (hv : JPlain v) (hw : JPlain w)
    (gv : JGood env.print v) (gw : JGood env.print w) (h : treeText env v = treeText env w) : v.json = w.json := by
  obtain ⟨t, h1, h2, _⟩ := C96_json env hp v hv
  obtain ⟨u, h3, h4, _⟩ := C96_json env hp w hw
  rw [h1, h3] at h
  cases h
  exact Option.some.inj ((h2 gv).symm.trans (h4 gw))

/-- **C96.** The item of the JSON value of an array at an index is the JSON value of its element. -/
theorem C96_nested (ds : List Nat) (f : List Nat → Json) : ∀ p, InB ds p →
    p.foldl (fun j i => j.bind (fun x => match x with | .arr l => l[i]? | _ => none)) (some (nested ds f)) = some (f p) := by
  induction ds generalizing f with
  | nil => intro p hp; cases p with
    | nil => rfl
    | cons i p => simp [InB] at hp
  | cons d ds ih =>
    intro p hp
    cases p with
    | nil => simp [InB] at hp
    | cons i p =>
      have hi : i < d := by simp [InB] at hp; exact hp.1
      have hp' : InB ds p := by simp [InB] at hp; exact hp.2
      rw [List.foldl_cons]
      simp only [nested, Option.bind_some, List.getElem?_map, List.getElem?_range hi, Option.map_some]
      exact ih _ p hp'

/-- **C96.** The empty array has no text: in a list it disappears (`(⍬;)` is shown as the empty list), as the value of a key the text is no
JSON. -/
theorem C96_empty (env : TextEnv V O) :
    treeText env (.list [.empty]) = treeText env (.list ([] : List (TVal V O))) ∧
    ∃ t, treeText env (.dict [(.item (.str ""), .empty)] : TVal V O) = .ok t ∧ readJson t = none := by
  exact ⟨rfl, "{\"\":}".toList, rfl, rfl⟩

/-! Examples -/

namespace JsonDemo

mutual
/-- equality of JSON values, to evaluate the examples -/
def same : Json → Json → Bool
  | .null, .null => true
  | .bool a, .bool b => a == b
  | .num m e, .num n f => m == n && e == f
  | .str s, .str t => s == t
  | .arr l, .arr k => sames l k
  | .obj l, .obj k => sameMembers l k
  | _, _ => false

/-- for the items of arrays -/
def sames : List Json → List Json → Bool
  | [], [] => true
  | x :: xs, y :: ys => same x y && sames xs ys
  | _, _ => false

/-- for the members of objects -/
def sameMembers : List (List Char × Json) → List (List Char × Json) → Bool
  | [], [] => true
  | (a, x) :: xs, (b, y) :: ys => a == b && same x y && sameMembers xs ys
  | _, _ => false
end

def env : TextEnv Unit Unit := ⟨fun c => decide (32 ≤ c.toNat ∧ c.toNat ≠ 127), fun c => c == ' ', fun _ _ _ => [], fun _ _ => none, 1, fun _ _ _ => []⟩

/-- `(1;2 2⍴5 6 7 8;"a" "b"#"x\n" (3;))` -/
def value : TVal Unit Unit := .list [.item (.num (.int 1)), .arr [2, 2] [.item (.num (.int 5)), .item (.num (.int 6)), .item (.num (.int 7)), .item (.num (.int 8))],
  .dict [(.item (.str "a"), .item (.str "x\n")), (.item (.str "b"), .list [.item (.num (.int 3))])]]

example : treeText env value = .ok "[1,[[5,6],[7,8]],{\"a\":\"x\\n\",\"b\":[3]}]".toList := rfl

example : (readJson "[1,[[5,6],[7,8]],{\"a\":\"x\\n\",\"b\":[3]}]".toList).any (same value.json) = true := by decide +kernel

example : (readJson " { \"k\" : -1.50e+2 , \"\\u00e9\" : [ true , null ] } ".toList).any
    (same (.obj [(['k'], .num (-150) 0), (['é'], .arr [.bool true, .null])])) = true := by decide +kernel

example : JPlain value ∧ JGood env.print value := by
  constructor
  · refine .list _ ?_
    simp only [List.mem_cons, List.not_mem_nil, or_false, forall_eq_or_imp, forall_eq]
    refine ⟨.int 1, .arr _ _ (by decide) (by decide) ?_, .dict _ ?_ ?_⟩
    · simp only [List.mem_cons, List.not_mem_nil, or_false, forall_eq_or_imp, forall_eq]
      exact ⟨.int 5, .int 6, .int 7, .int 8⟩
    · simp only [List.mem_cons, List.not_mem_nil, or_false, forall_eq_or_imp, forall_eq]
      exact ⟨.str _, .str _⟩
    · simp only [List.mem_cons, List.not_mem_nil, or_false, forall_eq_or_imp, forall_eq]
      exact ⟨.str _, .list _ (by simpa using .int 3)⟩
  · refine .list _ ?_
    simp only [List.mem_cons, List.not_mem_nil, or_false, forall_eq_or_imp, forall_eq]
    refine ⟨.int 1, .arr _ _ ?_, .dict _ ?_ ?_⟩
    · simp only [List.mem_cons, List.not_mem_nil, or_false, forall_eq_or_imp, forall_eq]
      exact ⟨.int 5, .int 6, .int 7, .int 8⟩
    · simp only [List.mem_cons, List.not_mem_nil, or_false, forall_eq_or_imp, forall_eq]
      exact ⟨⟨"a", rfl, by simp [JsonChar, env]⟩, ⟨"b", rfl, by simp [JsonChar, env]⟩⟩
    · simp only [List.mem_cons, List.not_mem_nil, or_false, forall_eq_or_imp, forall_eq]
      exact ⟨.str _ (by simp [JsonChar, env]), .list _ (by simpa using .int 3)⟩

/-- negative numbers, truth values, the bell character and numbers as keys give texts that are no JSON -/
example : ∃ t1 t2 t3 t4, treeText env (.list [.item (.num (.int (-1)))]) = .ok t1 ∧ readJson t1 = none ∧
    treeText env (.list [.item (.num (.bool true))]) = .ok t2 ∧ readJson t2 = none ∧
    treeText env (.item (.str "\x07")) = .ok t3 ∧ readJson t3 = none ∧
    treeText env (.dict [(.item (.num (.int 1)), .item (.num (.int 1)))]) = .ok t4 ∧ readJson t4 = none :=
  ⟨_, _, _, _, rfl, rfl, rfl, rfl, rfl, rfl, rfl, rfl⟩

end JsonDemo

end Iv

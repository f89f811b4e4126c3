import Verif.Model.Csv
import Verif.Props.Table
/-
C87: the text of tables and CSV.
-/
namespace Iv
variable {K T A Ty : Type} [DecidableEq K] [DecidableEq Ty]

/- ## Specification -/

/-- every quote twice -/
def csvDoubled (w : List Char) : List Char := w.flatMap (fun c => if c = '"' then ['"', '"'] else [c])

/-- A field of a CSV file (RFC 4180) and what it stands for: text without commas, quotes and line breaks, or text between quotes in which quotes
are written twice. -/
inductive CsvField : List Char → List Char → Prop
  | plain (w) : (∀ c ∈ w, c ∉ [',', '"', '\r', '\n']) → CsvField w w
  | quoted (w) : CsvField ('"' :: csvDoubled w ++ ['"']) w

/-- A record: fields with commas between them and a line break at the end. -/
inductive CsvRecord : List Char → List (List Char) → Prop
  | last (t f) : CsvField t f → CsvRecord (t ++ ['\n']) [f]
  | more (t f rest fs) : CsvField t f → CsvRecord rest fs → CsvRecord (t ++ ',' :: rest) (f :: fs)

/-- A file: any number of records. -/
inductive CsvFile : List Char → List (List (List Char)) → Prop
  | nil : CsvFile [] []
  | cons (t r rest rs) : CsvRecord t r → CsvFile rest rs → CsvFile (t ++ rest) (r :: rs)

/-- The text of a scalar depends on its own format only. -/
def LocalText (env : ShowEnv K A Ty) : Prop := ∀ pp f g v, env.parts v = none → mapGet f (env.ty v) = mapGet g (env.ty v) → env.text pp f v = env.text pp g v

/-- The text of a scalar with a format ("" is none), whatever the formats of other types are. -/
def scalarText (env : ShowEnv K A Ty) (pp : Int) (format : String) (v : A) : List Char :=
  env.text pp (if format = "" then [] else [(env.ty v, format)]) v

/- ## Proof -/

theorem csvQuote_eq (w : List Char) : csvQuote w = csvDoubled w := by
  induction w with
  | nil => rfl
  | cons c w ih =>
    rw [csvQuote, ih]
    simp only [csvDoubled, List.flatMap_cons]
    split <;> rfl

theorem csvField_spec (space : Char → Bool) (f : List Char) : CsvField (csvField space f) f := by
  rw [csvField]
  split
  · rw [csvQuote_eq]; exact .quoted f
  · rename_i h
    refine .plain f (fun c hc => ?_)
    cases f with
    | nil => cases hc
    | cons d f =>
      simp only [needsQuotes, Bool.or_eq_true, List.any_eq_true, not_or, not_exists, not_and, beq_iff_eq] at h
      have := h.1.2 c hc
      simp only [List.mem_cons, List.not_mem_nil, or_false, not_or]
      grind

theorem csvRecord_spec (space : Char → Bool) (r : List (List Char)) (h : r ≠ []) : CsvRecord (csvRecord space r) r := by
  have key : ∀ (fs : List (List Char)) (f : List Char), CsvRecord (csvField space f ++ csvMore space fs ++ ['\n']) (f :: fs) := by
    intro fs
    induction fs with
    | nil => intro f; rw [csvMore, List.append_nil]; exact .last _ f (csvField_spec space f)
    | cons g fs ih =>
      intro f
      have := CsvRecord.more _ f _ _ (csvField_spec space f) (ih g)
      rw [csvMore]
      simpa using this
  cases r with
  | nil => exact absurd rfl h
  | cons f fs => exact key fs f

theorem csvText_spec (space : Char → Bool) (rs : List (List (List Char))) (h : ∀ r ∈ rs, r ≠ []) : CsvFile (csvText space rs) rs := by
  induction rs with
  | nil => exact .nil
  | cons r rs ih => exact .cons _ r _ rs (csvRecord_spec space r (h r (by simp))) (ih (fun x hx => h x (by simp [hx])))

theorem csvDoubled_end (w w' r r' : List Char) (hr : r.head? ≠ some '"') (hr' : r'.head? ≠ some '"')
    (h : csvDoubled w ++ '"' :: r = csvDoubled w' ++ '"' :: r') : w = w' ∧ r = r' := by
  induction w generalizing w' with
  | nil =>
    cases w' with
    | nil => simp [csvDoubled] at h; exact ⟨rfl, h⟩
    | cons c w' =>
      exfalso
      simp only [csvDoubled, List.flatMap_nil, List.nil_append, List.flatMap_cons] at h
      split at h
      · simp only [List.cons_append, List.cons.injEq, true_and] at h
        rw [h] at hr; exact hr rfl
      · rename_i hc
        simp only [List.cons_append, List.cons.injEq] at h
        exact hc h.1.symm
  | cons c w ih =>
    cases w' with
    | nil =>
      exfalso
      simp only [csvDoubled, List.flatMap_nil, List.nil_append, List.flatMap_cons] at h
      split at h
      · simp only [List.cons_append, List.cons.injEq, true_and] at h
        rw [← h] at hr'; exact hr' rfl
      · rename_i hc
        simp only [List.cons_append, List.cons.injEq] at h
        exact hc h.1
    | cons c' w' =>
      have e : ∀ (c : Char) (w : List Char), csvDoubled (c :: w) = (if c = '"' then ['"', '"'] else [c]) ++ csvDoubled w := fun _ _ => rfl
      rw [e, e] at h
      by_cases hc : c = '"'
      · by_cases hc' : c' = '"'
        · rw [if_pos hc, if_pos hc'] at h
          simp only [List.cons_append, List.cons.injEq, true_and, List.nil_append] at h
          obtain ⟨h1, h2⟩ := ih w' h
          exact ⟨by rw [hc, hc', h1], h2⟩
        · rw [if_pos hc, if_neg hc'] at h
          simp only [List.cons_append, List.cons.injEq] at h
          exact absurd h.1.symm hc'
      · by_cases hc' : c' = '"'
        · rw [if_neg hc, if_pos hc'] at h
          simp only [List.cons_append, List.cons.injEq] at h
          exact absurd h.1 hc
        · rw [if_neg hc, if_neg hc'] at h
          simp only [List.cons_append, List.cons.injEq, List.nil_append] at h
          obtain ⟨h1, h2⟩ := ih w' h.2
          exact ⟨by rw [h.1, h1], h2⟩

theorem plain_end (w w' : List Char) (c c' : Char) (r r' : List Char) (hw : ∀ d ∈ w, d ∉ [',', '"', '\r', '\n']) (hw' : ∀ d ∈ w', d ∉ [',', '"', '\r', '\n'])
    (hc : c ∈ [',', '\n']) (hc' : c' ∈ [',', '\n']) (h : w ++ c :: r = w' ++ c' :: r') : w = w' ∧ c = c' ∧ r = r' := by
  induction w generalizing w' with
  | nil =>
    cases w' with
    | nil => simp at h; exact ⟨rfl, h⟩
    | cons d w' =>
      exfalso
      simp only [List.nil_append, List.cons_append, List.cons.injEq] at h
      refine hw' d (by simp) ?_
      rw [← h.1]; revert hc; simp; grind
  | cons d w ih =>
    cases w' with
    | nil =>
      exfalso
      simp only [List.nil_append, List.cons_append, List.cons.injEq] at h
      refine hw d (by simp) ?_
      rw [h.1]; revert hc'; simp; grind
    | cons d' w' =>
      simp only [List.cons_append, List.cons.injEq] at h
      obtain ⟨h1, h2⟩ := ih w' (fun x hx => hw x (by simp [hx])) (fun x hx => hw' x (by simp [hx])) h.2
      exact ⟨by rw [h.1, h1], h2⟩

theorem field_end (t t' f f' : List Char) (c c' : Char) (r r' : List Char) (ht : CsvField t f) (ht' : CsvField t' f') (hc : c ∈ [',', '\n']) (hc' : c' ∈ [',', '\n'])
    (h : t ++ c :: r = t' ++ c' :: r') : f = f' ∧ c = c' ∧ r = r' := by
  have hq : ∀ (c : Char) (r : List Char), c ∈ [',', '\n'] → (c :: r).head? ≠ some '"' := by
    intro c r hc e
    simp only [List.head?_cons, Option.some.injEq] at e
    subst e; revert hc; decide
  have mixed : ∀ (w v : List Char) (c c' : Char) (r r' : List Char), (∀ d ∈ w, d ∉ [',', '"', '\r', '\n']) → c ∈ [',', '\n'] →
      w ++ c :: r = '"' :: csvDoubled v ++ ['"'] ++ c' :: r' → False := by
    intro w v c c' r r' hw hc h
    cases w with
    | nil =>
      simp only [List.nil_append, List.cons_append, List.cons.injEq] at h
      have := h.1; subst this; revert hc; decide
    | cons d w =>
      simp only [List.cons_append, List.cons.injEq] at h
      have := h.1; subst this
      exact hw '"' (by simp) (by simp)
  cases ht with
  | plain _ hw =>
    cases ht' with
    | plain _ hw' => exact plain_end _ _ c c' r r' hw hw' hc hc' h
    | quoted v => exact (mixed _ _ c c' r r' hw hc h).elim
  | quoted w =>
    cases ht' with
    | plain _ hw' => exact (mixed _ _ c' c r' r hw' hc' h.symm).elim
    | quoted v =>
      have h' : csvDoubled f ++ '"' :: (c :: r) = csvDoubled f' ++ '"' :: (c' :: r') := by simpa using h
      obtain ⟨h1, h2⟩ := csvDoubled_end _ _ _ _ (hq c r hc) (hq c' r' hc') h'
      simp only [List.cons.injEq] at h2
      exact ⟨h1, h2⟩

theorem record_end (t t' : List Char) (fs fs' : List (List Char)) (r r' : List Char) (ht : CsvRecord t fs) (ht' : CsvRecord t' fs') (h : t ++ r = t' ++ r') :
    fs = fs' ∧ r = r' := by
  induction ht generalizing t' fs' with
  | last t f hf =>
    cases ht' with
    | last t2 f2 hf2 =>
      obtain ⟨h1, _, h2⟩ := field_end t t2 f f2 '\n' '\n' r r' hf hf2 (by decide) (by decide) (by simpa using h)
      exact ⟨by rw [h1], h2⟩
    | more t2 f2 rest2 fs2 hf2 hr2 =>
      obtain ⟨_, h1, _⟩ := field_end t t2 f f2 '\n' ',' r (rest2 ++ r') hf hf2 (by decide) (by decide) (by simpa using h)
      exact absurd h1 (by decide)
  | more t f rest fs hf hr ih =>
    cases ht' with
    | last t2 f2 hf2 =>
      obtain ⟨_, h1, _⟩ := field_end t t2 f f2 ',' '\n' (rest ++ r) r' hf hf2 (by decide) (by decide) (by simpa using h)
      exact absurd h1 (by decide)
    | more t2 f2 rest2 fs2 hf2 hr2 =>
      obtain ⟨h1, _, h2⟩ := field_end t t2 f f2 ',' ',' (rest ++ r) (rest2 ++ r') hf hf2 (by decide) (by decide) (by simpa using h)
      obtain ⟨h3, h4⟩ := ih rest2 fs2 hr2 h2
      exact ⟨by rw [h1, h3], h4⟩

theorem record_ne (t : List Char) (fs : List (List Char)) (h : CsvRecord t fs) : t ≠ [] := by
  cases h <;> simp

theorem csvRow_ok (text : A → List Char) (data : List A) (cols idx : Nat) (h : idx + cols ≤ data.length) :
    csvRow text data cols idx = .ok (((data.drop idx).take cols).map text) := by
  induction cols generalizing idx with
  | zero => simp [csvRow]
  | succ n ih =>
    have hlt : idx < data.length := by omega
    rw [csvRow, List.getElem?_eq_getElem hlt, ih (idx + 1) (by omega), List.drop_eq_getElem_cons hlt]
    rfl

theorem csvRows_ok (text : A → List Char) (data : List A) (cols rows idx : Nat) (h : idx + rows * cols ≤ data.length) :
    csvRows text data cols rows idx = .ok ((List.range rows).map (fun i => ((data.drop (idx + i * cols)).take cols).map text)) := by
  induction rows generalizing idx with
  | zero => rfl
  | succ n ih =>
    rw [Nat.add_mul, Nat.one_mul] at h
    rw [csvRows, csvRow_ok text data cols idx (by omega), ih (idx + cols) (by omega)]
    simp only [List.range_succ_eq_map, List.map_cons, List.map_map]
    congr 2
    · simp
    · refine List.map_congr_left (fun i _ => ?_)
      simp only [Function.comp, Nat.succ_mul]
      congr 3; omega

theorem mapGet_delete {V : Type} (m : List (Ty × V)) (k : Ty) : mapGet (mapDelete m k) k = none := by
  induction m with
  | nil => rfl
  | cons e m ih =>
    obtain ⟨k', v⟩ := e
    rw [mapDelete]
    split
    · exact ih
    · rename_i h
      rw [mapGet, if_neg h]
      exact ih

theorem cellFormats_get (env : ShowEnv K A Ty) (fmt : List (Ty × String)) (custom : String) (v : A) :
    mapGet (cellFormats env fmt custom v) (env.ty v) = mapGet (if custom = "" then [] else [(env.ty v, custom)]) (env.ty v) := by
  rw [cellFormats]
  split
  · exact mapGet_delete _ _
  · rw [mapGet_set, if_pos rfl]; simp [mapGet]

theorem rowTexts_ok (env : ShowEnv K A Ty) (hl : LocalText env) (pp : Int) (cf : List (K × String)) (t : Tab K (Col T A)) (n : Nat) (ks : List K)
    (fmt : List (Ty × String)) (h : ∀ k ∈ ks, ∃ v, cellAt t k n = .ok v ∧ env.parts v = none) :
    ∃ r fmt', rowTexts env pp cf t n ks fmt = .ok (r, fmt') ∧
      List.Forall₂ (fun k x => ∃ v, cellAt t k n = .ok v ∧ x = scalarText env pp ((mapGet cf k).getD "") v) ks r := by
  induction ks generalizing fmt with
  | nil => exact ⟨[], fmt, rfl, .nil⟩
  | cons k ks ih =>
    obtain ⟨v, h1, h2⟩ := h k (by simp)
    obtain ⟨r, fmt', h3, h4⟩ := ih (cellFormats env fmt ((mapGet cf k).getD "") v) (fun x hx => h x (by simp [hx]))
    refine ⟨tabCellText env pp (cellFormats env fmt ((mapGet cf k).getD "") v) v :: r, fmt', ?_, .cons ⟨v, h1, ?_⟩ h4⟩
    · rw [rowTexts, h1]; simp only; rw [h3]
    · rw [tabCellText, h2]
      exact hl pp _ _ v h2 (cellFormats_get env fmt _ v)

theorem tableTexts_ok (env : ShowEnv K A Ty) (hl : LocalText env) (pp : Int) (cf : List (K × String)) (t : Tab K (Col T A)) (m n : Nat)
    (fmt : List (Ty × String)) (h : ∀ i, n ≤ i → i < n + m → ∀ k ∈ t.dict.keys, ∃ v, cellAt t k i = .ok v ∧ env.parts v = none) :
    ∃ rs, tableTexts env pp cf t m n fmt = .ok rs ∧ rs.length = m ∧ ∀ (i : Nat) (r : List (List Char)), rs[i]? = some r →
      List.Forall₂ (fun k x => ∃ v, cellAt t k (n + i) = .ok v ∧ x = scalarText env pp ((mapGet cf k).getD "") v) t.dict.keys r := by
  induction m generalizing n fmt with
  | zero => exact ⟨[], rfl, rfl, by simp⟩
  | succ m ih =>
    obtain ⟨r, fmt', h1, h2⟩ := rowTexts_ok env hl pp cf t n t.dict.keys fmt (h n (Nat.le_refl _) (by omega))
    obtain ⟨rs, h3, h4, h5⟩ := ih (n + 1) fmt' (fun i h6 h7 => h i (by omega) (by omega))
    refine ⟨r :: rs, ?_, by simp [h4], ?_⟩
    · rw [tableTexts, h1]; simp only; rw [h3]
    · intro i r' hi
      cases i with
      | zero => simp at hi; subst hi; exact h2
      | succ i =>
        have := h5 i r' (by simpa using hi)
        have e : n + (i + 1) = n + 1 + i := by omega
        rw [e]; exact this

theorem cellAt_good (t : Tab K (Col T A)) (h : GoodTable t) (k : K) (hk : k ∈ t.dict.keys) (n : Nat) (hn : n < t.rows) :
    ∃ c v, t.dict.at k = some c ∧ c.cells[n]? = some v ∧ cellAt t k n = .ok v := by
  have hs := (h.mem k).1 hk
  obtain ⟨c, hc⟩ := Option.isSome_iff_exists.1 hs
  have hlt : n < c.cells.length := by rw [h.rows k c hc]; exact hn
  refine ⟨c, c.cells[n], hc, List.getElem?_eq_getElem hlt, ?_⟩
  rw [cellAt, hc]
  simp only
  rw [List.getElem?_eq_getElem hlt]

/- ## Theorems -/

/-- What is written as CSV is a CSV file with exactly these records. -/
theorem C87_csv (space : Char → Bool) (rs : List (List (List Char))) (h : ∀ r ∈ rs, r ≠ []) : CsvFile (csvText space rs) rs := csvText_spec space rs h

/-- A CSV file has one meaning: whoever reads it gets these records and no others. -/
theorem C87_unambiguous (text : List Char) (rs rs' : List (List (List Char))) (h : CsvFile text rs) (h' : CsvFile text rs') : rs = rs' := by
  induction h generalizing rs' with
  | nil =>
    generalize hx : ([] : List Char) = x at h'
    cases h' with
    | nil => rfl
    | cons t r rest rs ht _ =>
      exact absurd (List.append_eq_nil_iff.1 hx.symm).1 (record_ne t r ht)
  | cons t r rest rs ht _ ih =>
    generalize hx : t ++ rest = x at h'
    cases h' with
    | nil => exact absurd (List.append_eq_nil_iff.1 hx).1 (record_ne t r ht)
    | cons t2 r2 rest2 rs2 ht2 hrest2 =>
      obtain ⟨h1, h2⟩ := record_end t t2 r r2 rest rest2 ht ht2 hx
      subst h1 h2
      rw [ih rs2 hrest2]

/-- `"csv"⍕M`: the records are the rows of the matrix, a field is the text of an element; a matrix without elements is the empty text;
other arrays are an error. -/
theorem C87_matrix (space : Char → Bool) (text : A → List Char) (r c : Nat) (data : List A) (h : data.length = r * c) :
    ∃ s, formatCsv space text [r, c] data = .ok s ∧
      (r = 0 ∨ c = 0 → s = []) ∧
      (0 < c → ∃ rows, CsvFile s rows ∧ rows.length = r ∧
        ∀ (i : Nat) (row : List (List Char)), rows[i]? = some row → row.length = c ∧ ∀ j, j < c → row[j]? = (data[i * c + j]?).map text) := by
  by_cases h0 : r = 0 ∨ c = 0
  · refine ⟨[], by rw [formatCsv, if_pos h0], fun _ => rfl, fun hc => ⟨[], .nil, ?_, by simp⟩⟩
    rcases h0 with h0 | h0
    · simp [h0]
    · omega
  · refine ⟨_, ?_, fun h => absurd h h0, fun hc => ⟨(List.range r).map (fun i => ((data.drop (0 + i * c)).take c).map text), csvText_spec space _ ?_, by simp, ?_⟩⟩
    · rw [formatCsv, if_neg h0, csvRows_ok text data c r 0 (by omega)]; rfl
    · intro x hx
      simp only [List.mem_map, List.mem_range] at hx
      obtain ⟨i, hi, rfl⟩ := hx
      have : (i + 1) * c ≤ r * c := Nat.mul_le_mul_right c hi
      rw [Nat.add_mul, Nat.one_mul] at this
      intro e
      have := congrArg List.length e
      simp at this
      omega
    · intro i row hi
      simp only [List.getElem?_map, Option.map_eq_some_iff] at hi
      obtain ⟨k, hk, rfl⟩ := hi
      have hik := List.getElem?_eq_some_iff.1 hk
      obtain ⟨hlt, e⟩ := hik
      simp only [List.length_range] at hlt
      simp only [List.getElem_range] at e
      subst e
      have : (i + 1) * c ≤ r * c := Nat.mul_le_mul_right c hlt
      rw [Nat.add_mul, Nat.one_mul] at this
      refine ⟨by simp; omega, fun j hj => ?_⟩
      rw [List.getElem?_map, List.getElem?_take_of_lt hj, List.getElem?_drop]
      simp

/-- other arrays are rejected -/
theorem C87_matrix_only (space : Char → Bool) (text : A → List Char) (shape : List Nat) (data : List A) (h : shape.length ≠ 2) :
    formatCsv space text shape data = .error .err := by
  match shape, h with
  | [], _ => rfl
  | [_], _ => rfl
  | [_, _], h => exact absurd rfl h
  | _ :: _ :: _ :: _, _ => rfl

/-- The rows of the text of a table of scalars, also with formats for some columns: a header with the names of the columns, then the rows in order,
each with a text for every column: the text of the cell with the format of its column, if any. -/
theorem C87_table (env : ShowEnv K A Ty) (hl : LocalText env) (pp : Int) (fmt : List (Ty × String)) (cf : List (K × String)) (t : Tab K (Col T A))
    (h : GoodTable t) (hne : t.dict.keys ≠ []) (hs : ∀ k c, t.dict.at k = some c → ∀ v ∈ c.cells, env.parts v = none) :
    ∃ rows, writeTable env pp fmt cf t = .ok (t.dict.keys.map (env.key pp fmt) :: rows) ∧ rows.length = t.rows ∧
      ∀ (i j : Nat) (k : K) (c : Col T A) (v : A), t.dict.keys[j]? = some k → t.dict.at k = some c → c.cells[i]? = some v →
        ∃ row, rows[i]? = some row ∧ row.length = t.dict.keys.length ∧ row[j]? = some (scalarText env pp ((mapGet cf k).getD "") v) := by
  have hcell : ∀ i, 0 ≤ i → i < 0 + t.rows → ∀ k ∈ t.dict.keys, ∃ v, cellAt t k i = .ok v ∧ env.parts v = none := by
    intro i _ hi k hk
    obtain ⟨c, v, h1, h2, h3⟩ := cellAt_good t h k hk i (by omega)
    exact ⟨v, h3, hs k c h1 v (List.mem_of_getElem? h2)⟩
  obtain ⟨rs, h1, h2, h3⟩ := tableTexts_ok env hl pp cf t t.rows 0 fmt hcell
  refine ⟨rs, ?_, h2, ?_⟩
  · rw [writeTable, if_neg (by simpa using hne), h1]
  · intro i j k c v hj hc hv
    have hi : i < t.rows := by
      rw [← h.rows k c hc]
      exact (List.getElem?_eq_some_iff.1 hv).1
    have hlt : i < rs.length := by omega
    have hrow := h3 i rs[i] (List.getElem?_eq_getElem hlt)
    refine ⟨rs[i], List.getElem?_eq_getElem hlt, hrow.length_eq.symm, ?_⟩
    have hjl : j < t.dict.keys.length := (List.getElem?_eq_some_iff.1 hj).1
    have hjr : j < rs[i].length := by rw [← hrow.length_eq]; exact hjl
    obtain ⟨v', hv', hx⟩ := (List.forall₂_iff_get.1 hrow).2 j hjl hjr
    rw [List.getElem?_eq_getElem hjr]
    have hk : t.dict.keys.get ⟨j, hjl⟩ = k := by
      have := (List.getElem?_eq_some_iff.1 hj).2
      exact this
    rw [hk] at hv' hx
    rw [cellAt, hc] at hv'
    simp only [Nat.zero_add, hv] at hv'
    cases hv'
    exact congrArg some hx

/-- `"csv"⍕T`: the CSV file has the header and the rows of the table as its records. -/
theorem C87_table_csv (space : Char → Bool) (env : ShowEnv K A Ty) (hl : LocalText env) (pp : Int) (fmt : List (Ty × String)) (cf : List (K × String))
    (t : Tab K (Col T A)) (h : GoodTable t) (hne : t.dict.keys ≠ []) (hs : ∀ k c, t.dict.at k = some c → ∀ v ∈ c.cells, env.parts v = none) :
    ∃ s rows, tableCsv space env pp fmt cf t = .ok s ∧ writeTable env pp fmt cf t = .ok rows ∧ CsvFile s rows := by
  obtain ⟨rows, h1, h2, h3⟩ := C87_table env hl pp fmt cf t h hne hs
  refine ⟨_, _, by rw [tableCsv, h1]; rfl, h1, csvText_spec space _ ?_⟩
  intro r hr
  rcases List.mem_cons.1 hr with rfl | hr
  · simpa using hne
  · obtain ⟨i, hi, rfl⟩ := List.getElem_of_mem hr
    obtain ⟨k, ks, hk⟩ := List.exists_cons_of_ne_nil hne
    obtain ⟨c, v, h4, h5, _⟩ := cellAt_good t h k (by rw [hk]; simp) i (by omega)
    obtain ⟨row, h6, h7, _⟩ := h3 i 0 k c v (by rw [hk]; rfl) h4 h5
    rw [List.getElem?_eq_getElem hi] at h6
    cases h6
    intro e
    rw [e, hk] at h7
    simp at h7

namespace CsvDemo

/-- cells: numbers and vectors; a format is put in front of the text -/
inductive Cell
  | int (n : Nat)
  | vec (l : List Nat)
deriving DecidableEq

def env : ShowEnv String Cell Bool where
  ty v := match v with
    | .int _ => false
    | .vec _ => true
  parts v := match v with
    | .int _ => none
    | .vec l => some (l.map .int)
  text _ fmt v := match v with
    | .int n => ((mapGet fmt false).getD "").toList ++ (toString n).toList
    | .vec _ => []
  key _ _ k := k.toList

theorem env_local : LocalText env := by
  intro pp f g v hv h
  cases v with
  | int n => simp only [env] at h ⊢; rw [h]
  | vec l => cases hv

def table : Tab String (Col Unit Cell) := ⟨⟨["A", "B"], [("A", ⟨(), [.int 1, .int 2]⟩), ("B", ⟨(), [.int 3, .int 4]⟩)]⟩, 2⟩

theorem table_good : GoodTable table := by
  have hk : ∀ k, k = "A" ∨ k = "B" ∨ (k ≠ "A" ∧ k ≠ "B") := by intro k; by_cases h1 : k = "A" <;> by_cases h2 : k = "B" <;> simp [h1, h2]
  refine ⟨by decide, fun k => ?_, fun k c h => ?_⟩
  · rcases hk k with rfl | rfl | ⟨h1, h2⟩
    · decide
    · decide
    · simp [table, Dict.at, mapGet, h1, h2, Ne.symm h1, Ne.symm h2]
  · rcases hk k with rfl | rfl | ⟨h1, h2⟩
    · cases h; rfl
    · cases h; rfl
    · simp [table, Dict.at, mapGet, Ne.symm h1, Ne.symm h2] at h

example : (writeTable env 0 [] [("A", "$")] table).toOption = some [["A".toList, "B".toList], ["$1".toList, "3".toList], ["$2".toList, "4".toList]] := by decide +kernel
example : ∀ k c, table.dict.at k = some c → ∀ v ∈ c.cells, env.parts v = none := by
  intro k c h v hv
  by_cases h1 : k = "A"
  · subst h1; cases h
    simp at hv
    rcases hv with rfl | rfl <;> rfl
  · by_cases h2 : k = "B"
    · subst h2; cases h
      simp at hv
      rcases hv with rfl | rfl <;> rfl
    · simp [table, Dict.at, mapGet, Ne.symm h1, Ne.symm h2] at h
example : csvText (· == ' ') [["a,b".toList, "c\"d".toList], [" x".toList, []]] = "\"a,b\",\"c\"\"d\"\n\" x\",\n".toList := by decide +kernel
example : (formatCsv (· == ' ') (fun n : Nat => (toString n).toList) [2, 2] [1, 2, 3, 4]).toOption = some "1,2\n3,4\n".toList := by decide +kernel

/-- The format of a column is also used for the elements of vectors in other columns. -/
theorem C87_format_leak : (writeTable env 0 [] [("A", "$")]
    (⟨⟨["A", "B"], [("A", ⟨(), [.int 1]⟩), ("B", ⟨(), [.vec [5, 6]]⟩)]⟩, 1⟩ : Tab String (Col Unit Cell))).toOption =
      some [["A".toList, "B".toList], ["$1".toList, "$5 $6".toList]] := by decide +kernel

/-- A format that the user has set for a type has no effect on tables. -/
theorem C87_user_format_ignored : (writeTable env 0 [(false, "#")] [] table).toOption =
    some [["A".toList, "B".toList], ["1".toList, "3".toList], ["2".toList, "4".toList]] ∧ env.text 0 [(false, "#")] (.int 1) = "#1".toList := by decide +kernel

/-- An empty cell in a table with one column is an empty line, which readers usually skip. -/
theorem C87_blank_line : csvText (· == ' ') [["A".toList], []  :: []] = "A\n\n".toList := by decide +kernel

end CsvDemo

end Iv

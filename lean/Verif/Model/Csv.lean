import Verif.Model.Table
/-
Text of tables and matrices: apl/table.go:50-156, apl/primitives/format.go:81-138, and Go's encoding/csv `Writer`.

Simplifications: the alignment by text/tabwriter is not modelled: a table is the list of its rows of texts.  The texts are lists of characters;
writing to the buffer does not fail.
-/
namespace Iv
variable {K T A Ty : Type} [DecidableEq K] [DecidableEq Ty]

/-- Go's csv `fieldNeedsQuotes`; `space` is `unicode.IsSpace` -/
def needsQuotes (space : Char → Bool) (f : List Char) : Bool :=
  match f with
  | [] => false
  | c :: _ => f == ['\\', '.'] || f.any (fun d => d == ',' || d == '"' || d == '\r' || d == '\n') || space c

/-- quotes are written twice -/
def csvQuote : List Char → List Char
  | [] => []
  | c :: cs => if c = '"' then '"' :: '"' :: csvQuote cs else c :: csvQuote cs

/-- one field -/
def csvField (space : Char → Bool) (f : List Char) : List Char := if needsQuotes space f then '"' :: csvQuote f ++ ['"'] else f

/-- the fields of a record but the first, each after a comma -/
def csvMore (space : Char → Bool) : List (List Char) → List Char
  | [] => []
  | f :: fs => ',' :: csvField space f ++ csvMore space fs

/-- Go's csv `Writer.Write`: one record -/
def csvRecord (space : Char → Bool) : List (List Char) → List Char
  | [] => ['\n']
  | f :: fs => csvField space f ++ csvMore space fs ++ ['\n']

/-- all records -/
def csvText (space : Char → Bool) : List (List (List Char)) → List Char
  | [] => []
  | r :: rs => csvRecord space r ++ csvText space rs

/-- apl/primitives/format.go:113-127: one record of a matrix: cells `idx`, `idx + 1`, ... -/
def csvRow (text : A → List Char) (data : List A) : (cols idx : Nat) → Res (List (List Char))
  | 0, _ => .ok []
  | n + 1, idx => match data[idx]? with
    | none => .error .panic
    | some a => match csvRow text data n (idx + 1) with
      | .error e => .error e
      | .ok r => .ok (text a :: r)

/-- apl/primitives/format.go:115: the loop over the rows -/
def csvRows (text : A → List Char) (data : List A) (cols : Nat) : (rows idx : Nat) → Res (List (List (List Char)))
  | 0, _ => .ok []
  | n + 1, idx => match csvRow text data cols idx with
    | .error e => .error e
    | .ok r => match csvRows text data cols n (idx + cols) with
      | .error e => .error e
      | .ok rs => .ok (r :: rs)

/-- apl/primitives/format.go:101-127 `formatCsv` of an array -/
def formatCsv (space : Char → Bool) (text : A → List Char) (shape : List Nat) (data : List A) : Res (List Char) :=
  match shape with
  | [r, c] => if r = 0 ∨ c = 0 then .ok [] else (csvRows text data c r 0).map (csvText space)
  | _ => .error .err

/-! ### Tables -/

/-- What is needed to show cells: the Go type of a value; the elements of an array; the text of a value with a precision and formats by type. -/
structure ShowEnv (K A Ty : Type) where
  ty : A → Ty
  parts : A → Option (List A)
  text : (pp : Int) → (fmt : List (Ty × String)) → A → List Char
  key : (pp : Int) → (fmt : List (Ty × String)) → K → List Char

/-- Go's `delete(m, k)` -/
def mapDelete {V : Type} : List (Ty × V) → Ty → List (Ty × V)
  | [], _ => []
  | (k, v) :: m, k' => if k = k' then mapDelete m k' else (k, v) :: mapDelete m k'

/-- apl/table.go:116-121: the formats for a cell with the given format of the column ("" is none) -/
def cellFormats (env : ShowEnv K A Ty) (fmt : List (Ty × String)) (custom : String) (v : A) : List (Ty × String) :=
  if custom = "" then mapDelete fmt (env.ty v) else mapSet fmt (env.ty v) custom

/-- texts with a blank between them -/
def joinBlank : List (List Char) → List Char
  | [] => []
  | [t] => t
  | t :: ts => t ++ ' ' :: joinBlank ts

/-- apl/table.go:122-134: the text of a cell -/
def tabCellText (env : ShowEnv K A Ty) (pp : Int) (fmt : List (Ty × String)) (v : A) : List Char :=
  match env.parts v with
  | none => env.text pp fmt v
  | some l => if pp < 0 then '[' :: joinBlank (l.map (env.text pp fmt)) ++ [']'] else joinBlank (l.map (env.text pp fmt))

/-- the cell of a column (apl/table.go:115) -/
def cellAt (t : Tab K (Col T A)) (k : K) (n : Nat) : Res A :=
  match t.dict.at k with
  | none => .error .panic
  | some c => match c.cells[n]? with
    | none => .error .panic
    | some v => .ok v

/-- apl/table.go:108-135: one row; the formats are changed by every cell -/
def rowTexts (env : ShowEnv K A Ty) (pp : Int) (cf : List (K × String)) (t : Tab K (Col T A)) (n : Nat) :
    List K → List (Ty × String) → Res (List (List Char) × List (Ty × String))
  | [], fmt => .ok ([], fmt)
  | k :: ks, fmt => match cellAt t k n with
    | .error e => .error e
    | .ok v => match rowTexts env pp cf t n ks (cellFormats env fmt ((mapGet cf k).getD "") v) with
      | .error e => .error e
      | .ok (r, fmt') => .ok (tabCellText env pp (cellFormats env fmt ((mapGet cf k).getD "") v) v :: r, fmt')

/-- apl/table.go:107-139: `m` rows from row `n` on -/
def tableTexts (env : ShowEnv K A Ty) (pp : Int) (cf : List (K × String)) (t : Tab K (Col T A)) :
    (m n : Nat) → List (Ty × String) → Res (List (List (List Char)))
  | 0, _, _ => .ok []
  | m + 1, n, fmt => match rowTexts env pp cf t n t.dict.keys fmt with
    | .error e => .error e
    | .ok (r, fmt') => match tableTexts env pp cf t m (n + 1) fmt' with
      | .error e => .error e
      | .ok rs => .ok (r :: rs)

/-- apl/table.go:73-142 `write`: the rows that are handed to the writer; `cf` are the formats of the columns -/
def writeTable (env : ShowEnv K A Ty) (pp : Int) (fmt : List (Ty × String)) (cf : List (K × String)) (t : Tab K (Col T A)) :
    Res (List (List (List Char))) :=
  if t.dict.keys.length = 0 then .ok []
  else match tableTexts env pp cf t t.rows 0 fmt with
    | .error e => .error e
    | .ok rs => .ok (t.dict.keys.map (env.key pp fmt) :: rs)

/-- apl/table.go:54-61 `Csv` -/
def tableCsv (space : Char → Bool) (env : ShowEnv K A Ty) (pp : Int) (fmt : List (Ty × String)) (cf : List (K × String)) (t : Tab K (Col T A)) :
    Res (List Char) :=
  (writeTable env pp fmt cf t).map (csvText space)

end Iv

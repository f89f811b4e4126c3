import Verif.Model.Unify
import Verif.Model.Scan
/-
Text of values and back: formatting of numbers, strings and arrays (apl/fmt.go, apl/int.go, apl/bool.go, apl/string.go), and parsing of
numbers (apl/tower.go) and arrays (apl/fmt.go).
Simplifications: no format strings are set for types (`Format.Fmt` is empty); texts are lists of characters (valid UTF-8); arrays are
well-formed except where a panic is shown; the text of numbers of the tower, `unicode.IsPrint` and `unicode.IsSpace` are parameters.
-/
namespace Iv
variable {V O : Type}

/-- What formatting and parsing ask their environment. -/
structure TextEnv (V O : Type) where
  /-- `unicode.IsPrint` -/
  print : Char → Bool
  /-- `unicode.IsSpace` -/
  space : Char → Bool
  /-- `String(f)` of a number of a class of the tower, for a value of PP (e.g. apl/numbers/float.go:17-35) -/
  numText : Int → Nat → V → List Char
  /-- `Parse` of a class of the tower (e.g. apl/numbers/float.go:40-46) -/
  numParse : Nat → List Char → Option V
  /-- number of classes of the tower -/
  classes : Nat
  /-- `String(f)` of another value -/
  otherText : Int → Nat → O → List Char

/-- the digit for a value (Go's strconv: `digits`), in lower or upper case -/
def digitChar (up : Bool) (d : Nat) : Char := ((if up then "0123456789ABCDEF" else "0123456789abcdef").toList)[d]?.getD '0'

/-- The digits of a number (Go's strconv `formatBits`: the last digit first, until the rest is below the base). -/
def digitsLoop (up : Bool) (base : Nat) : (fuel : Nat) → Nat → List Char → List Char
  | 0, _, acc => acc
  | n + 1, u, acc => if u < base then digitChar up u :: acc else digitsLoop up base n (u / base) (digitChar up (u % base) :: acc)

/-- the text of a natural number -/
def natText (up : Bool) (base : Nat) (u : Nat) : List Char := digitsLoop up base (u + 1) u []

/-- the text of an integer (`%v`, `%o`, `%X`): a sign and the digits -/
def signText (up : Bool) (base : Nat) (i : Int) : List Char :=
  if i < 0 then '-' :: natText up base i.natAbs else natText up base i.natAbs

/-- `strings.Replace(s, "-", "¯", 1)` -/
def highMinus : List Char → List Char
  | [] => []
  | c :: cs => if c = '-' then '¯' :: cs else c :: highMinus cs

/-- apl/int.go:22-43 `Int.String` -/
def intText (pp : Int) (i : Int) : List Char :=
  highMinus (if pp = -8 then '0' :: signText false 8 i else if pp = -16 then '0' :: 'x' :: signText true 16 i else signText false 10 i)

/-- apl/bool.go:9-20 `Bool.String` -/
def boolText (pp : Int) (b : Bool) : List Char :=
  if pp < 0 then (if b then "1b".toList else "0b".toList) else (if b then "1".toList else "0".toList)

/-- `k` hexadecimal digits of a code -/
def hexDigits : (k : Nat) → Nat → List Char
  | 0, _ => []
  | k + 1, v => hexDigits k (v / 16) ++ [digitChar false (v % 16)]

/-- the escape of one character that is not printable (Go's strconv `appendEscapedRune`) -/
def escapeRune (c : Char) : List Char :=
  if c = '\x07' then "\\a".toList else if c = '\x08' then "\\b".toList else if c = '\x0c' then "\\f".toList
  else if c = '\n' then "\\n".toList else if c = '\r' then "\\r".toList else if c = '\t' then "\\t".toList
  else if c = '\x0b' then "\\v".toList
  else if c.toNat < 32 ∨ c.toNat = 127 then '\\' :: 'x' :: hexDigits 2 c.toNat
  else if c.toNat < 65536 then '\\' :: 'u' :: hexDigits 4 c.toNat
  else '\\' :: 'U' :: hexDigits 8 c.toNat

/-- the text of one character within double quotes (Go's strconv `appendEscapedRune`) -/
def quoteRune (print : Char → Bool) (c : Char) : List Char :=
  if c = '"' ∨ c = '\\' then ['\\', c] else if print c then [c] else escapeRune c

/-- Go's `strconv.Quote`, the format `%q` -/
def quote (print : Char → Bool) (s : List Char) : List Char := '"' :: s.flatMap (quoteRune print) ++ ['"']

/-- apl/string.go:13-24 `String.String` -/
def strText (print : Char → Bool) (pp : Int) (s : List Char) : List Char := if pp < 0 then quote print s else s

/-- the text of an element of an array (`v.String(f)`) -/
def itemText (env : TextEnv V O) (pp : Int) : UItem V O → List Char
  | .num (.bool b) => boolText pp b
  | .num (.int i) => intText pp i
  | .num (.num c v) => env.numText pp c v
  | .str s => strText env.print pp s.toList
  | .other ty v => env.otherText pp ty v

/-- `strings.Join` -/
def joinText (sep : List Char) : List (List Char) → List Char
  | [] => []
  | [x] => x
  | x :: y :: xs => x ++ sep ++ joinText sep (y :: xs)

/-- apl/fmt.go:123-139 `jsonArray` (the inner function `vector`), on the texts of the elements; slices out of range and an array of rank 0
panic -/
def jsonText : List Nat → List (List Char) → Res (List Char)
  | [], _ => .error .panic
  | [d], ss => if d ≤ ss.length then .ok ('[' :: joinText [','] (ss.take d) ++ [']']) else .error .panic
  | d :: e :: ds, ss => do
    let parts ← (List.range d).mapM (fun i =>
      if i * prod (e :: ds) ≤ ss.length then jsonText (e :: ds) (ss.drop (i * prod (e :: ds))) else .error .panic)
    .ok ('[' :: joinText [','] parts ++ [']'])

/-- apl/fmt.go:152-158: the rows of a matrix, from row `i` at offset `off` -/
def matRows (rows cols : Nat) (ss : List (List Char)) : (left : Nat) → (i off : Nat) → Res (List Char)
  | 0, _, _ => .ok []
  | n + 1, i, off =>
    if off + cols ≤ ss.length then do
      let rest ← matRows rows cols ss n (i + 1) (off + cols)
      .ok (joinText [','] ((ss.drop off).take cols) ++ (if i + 1 < rows then [';'] else []) ++ rest)
    else .error .panic

/-- apl/fmt.go:142-161 `matArray` -/
def matText (dims : List Nat) (ss : List (List Char)) : Res (List Char) :=
  match dims with
  | [_] => .ok ('[' :: joinText [','] ss ++ [']'])
  | [r, c] => do
    let t ← matRows r c ss r 0 0
    .ok ('[' :: t ++ [']'])
  | _ => .ok "[rank error]".toList

/-- apl/fmt.go:76-88 the function `inc`, on the reversed index and shape: the next index and the number of axes that wrapped (−1: all) -/
def incTerm : (i : Nat) → (dims idx : List Nat) → List Nat × Int
  | i, d :: ds, k :: ks =>
    if k + 1 = d then (0 :: (incTerm (i + 1) ds ks).1, (incTerm (i + 1) ds ks).2) else ((k + 1) :: ks, i)
  | _, _, ks => (ks, -1)

/-- apl/fmt.go:93-99: the newlines after an element -/
def termText (term : Int) : List Char :=
  if term > 0 then List.replicate term.toNat '\n' else if term = -1 then ['\n'] else []

/-- apl/fmt.go:91-102: the loop over the elements, given the cells as the tabwriter writes them, and the reversed shape and index -/
def tabLoop (rdims : List Nat) : List Nat → List (List Char) → List Char
  | _, [] => []
  | ridx, cell :: cells => cell ++ termText (incTerm 0 rdims ridx).2 ++ tabLoop rdims (incTerm 0 rdims ridx).1 cells

/-- The width of the column of element `i` (Go's text/tabwriter with minimal width 1, padding 1; the lines of one matrix follow each other,
matrices are separated by empty lines): one more than the longest text in the column.  `rows` and `cols` are the last two axes. -/
def colWidth (rows cols : Nat) (ss : List (List Char)) (i : Nat) : Nat :=
  ((List.range rows).map (fun r => (ss[i / (rows * cols) * (rows * cols) + r * cols + i % cols]?.getD []).length)).foldl max 0 + 1

/-- a cell as the tabwriter writes it (flag AlignRight): blanks and the text -/
def cellText (rows cols : Nat) (ss : List (List Char)) (i : Nat) : List Char :=
  List.replicate (colWidth rows cols ss i - (ss[i]?.getD []).length) ' ' ++ ss[i]?.getD []

/-- apl/fmt.go:103-109: the last newline is left out -/
def dropNewline (s : List Char) : List Char := if s.getLast? = some '\n' then s.dropLast else s

/-- apl/fmt.go:63-110: the table of `ArrayString` -/
def tabText (dims : List Nat) (ss : List (List Char)) : List Char :=
  match dims with
  | [] => []
  | [_] => joinText [' '] ss
  | _ => dropNewline (tabLoop dims.reverse (dims.map (fun _ => 0))
      ((List.range ss.length).map (cellText (dims.reverse[1]?.getD 0) (dims.reverse[0]?.getD 0) ss)))

/-- apl/fmt.go:57-110 `ArrayString` -/
def arrayText (env : TextEnv V O) (pp : Int) (dims : List Nat) (items : List (UItem V O)) : Res (List Char) :=
  if pp = -2 then jsonText dims (items.map (itemText env pp))
  else if pp = -3 then matText dims (items.map (itemText env pp))
  else .ok (tabText dims (items.map (itemText env pp)))

/-- the value of a digit (Go's strconv `ParseUint`) -/
def digitVal (c : Char) : Option Nat :=
  if '0' ≤ c ∧ c ≤ '9' then some (c.toNat - '0'.toNat)
  else if 'a' ≤ c ∧ c ≤ 'z' then some (c.toNat - 'a'.toNat + 10)
  else if 'A' ≤ c ∧ c ≤ 'Z' then some (c.toNat - 'A'.toNat + 10)
  else none

/-- the number of a sequence of digits -/
def digitsVal (base : Nat) : Nat → List Char → Option Nat
  | v, [] => some v
  | v, c :: cs => match digitVal c with
    | some d => if d < base then digitsVal base (v * base + d) cs else none
    | none => none

/-- Go's `strconv.ParseUint(s, 0, 64)` without the test for the range, which the test in `ParseInt` includes.  Underscores are left out
(`ScanNumber` does not accept them). -/
def parseUint (s : List Char) : Option Nat :=
  match s with
  | [] => none
  | '0' :: 'b' :: c :: cs => digitsVal 2 0 (c :: cs)
  | '0' :: 'B' :: c :: cs => digitsVal 2 0 (c :: cs)
  | '0' :: 'o' :: c :: cs => digitsVal 8 0 (c :: cs)
  | '0' :: 'O' :: c :: cs => digitsVal 8 0 (c :: cs)
  | '0' :: 'x' :: c :: cs => digitsVal 16 0 (c :: cs)
  | '0' :: 'X' :: c :: cs => digitsVal 16 0 (c :: cs)
  | '0' :: cs => digitsVal 8 0 cs
  | c :: cs => digitsVal 10 0 (c :: cs)

/-- Go's `strconv.ParseInt(s, 0, 64)` -/
def parseInt64 (s : List Char) : Option Int :=
  match s with
  | '-' :: cs => (parseUint cs).bind (fun u => if u > 2 ^ 63 then none else some (-(u : Int)))
  | '+' :: cs => (parseUint cs).bind (fun u => if u ≥ 2 ^ 63 then none else some (u : Int))
  | cs => (parseUint cs).bind (fun u => if u ≥ 2 ^ 63 then none else some (u : Int))

/-- apl/int.go:55-61 `ParseInt` -/
def parseInt (s : List Char) : Option Int := parseInt64 (s.map (fun c => if c = '¯' then '-' else c))

/-- apl/tower.go:54-61: the first class of the tower that accepts the text -/
def parseClass (env : TextEnv V O) (s : List Char) : (left : Nat) → (c : Nat) → Option (TNum V)
  | 0, _ => none
  | n + 1, c => match env.numParse c s with
    | some v => some (.num c v)
    | none => parseClass env s n (c + 1)

/-- apl/tower.go:37-63 `Tower.Parse` -/
def parseNumber (env : TextEnv V O) (s : List Char) : Option (TNum V) :=
  if s = "1b".toList then some (.bool true)
  else if s = "0b".toList then some (.bool false)
  else match parseInt s with
    | some i => some (.int i)
    | none => parseClass env s env.classes 0

/-- The state of the loop of `ScanRankArray` (apl/fmt.go:195-197). -/
structure RankSt (V O : Type) where
  values : List (UItem V O)
  c : Nat
  shape : List Nat

/-- What `ScanRankArray` returns: the end of the text, a single value, or an array. -/
inductive Scanned (V O : Type)
  | eof
  | one (x : UItem V O)
  | array (shape : List Nat) (items : List (UItem V O))

/-- apl/fmt.go:210-215: the shape grows by an axis; the division panics for zero -/
def growShape (shape : List Nat) (n : Nat) : Res (List Nat) :=
  if shape = [] then .ok [n] else if prod shape = 0 then .error .panic else .ok (n / prod shape :: shape)

/-- apl/fmt.go:262-274: the loop that adds the leading axes -/
def fillShape (n : Nat) (rank : Int) : (fuel : Nat) → (i : Nat) → List Nat → Res (List Nat)
  | 0, _, _ => .error .panic
  | fuel + 1, i, shape =>
    if (i : Int) ≤ rank - shape.length then
      if shape ≠ [] ∧ prod shape = 0 then .error .err
      else if prod (n / (if shape = [] then 1 else prod shape) :: shape) ≠ n then .error .err
      else fillShape n rank fuel (i + 1) (n / (if shape = [] then 1 else prod shape) :: shape)
    else .ok shape

/-- apl/fmt.go:250-277: after the loop -/
def finishRank (rank : Int) (st : RankSt V O) : Res (Scanned V O) :=
  if st.values = [] then .ok .eof
  else
    let r : Int := if rank < 0 then (if prod st.shape = st.values.length then st.shape.length - 1 else st.shape.length) else rank
    (fillShape st.values.length r (r.toNat + 2) 0 st.shape).map (fun sh => .array sh st.values)

/-- the characters that close an axis (apl/fmt.go:202) -/
def closesAxis (c : Char) : Bool := c == '\n' || c == ';' || c == ']'

/-- the characters that are skipped (apl/fmt.go:218) -/
def skipped (env : TextEnv V O) (c : Char) : Bool := env.space c || c == ',' || c == '[' || c == '(' || c == ')'

/-- the result of the loop together with the remaining text -/
def withRest (rest : List Char) (r : Res (Scanned V O)) : Res (Scanned V O × List Char) := r.map (fun x => (x, rest))

/-- apl/fmt.go:198-249: the loop over the text, with the end of the function; the result has the remaining text.  Each round takes at least
one character.  Simplification: an empty text for a number (a character that starts nothing) is an error; the code asks the tower, which does
not accept it. -/
def rankLoop (env : TextEnv V O) (rank : Int) : (fuel : Nat) → List Char → RankSt V O → Res (Scanned V O × List Char)
  | _, [], st => withRest [] (finishRank rank st)
  | 0, _, _ => .error .panic
  | n + 1, r :: cs, st =>
    if closesAxis r then
      if st.values = [] then rankLoop env rank n cs st
      else if (st.c + 1 : Int) = rank then withRest cs (finishRank rank { st with c := st.c + 1 })
      else if st.c + 1 > st.shape.length then
        match growShape st.shape st.values.length with
        | .ok sh => rankLoop env rank n cs ⟨st.values, st.c + 1, sh⟩
        | .error e => .error e
      else rankLoop env rank n cs { st with c := st.c + 1 }
    else if skipped env r then rankLoop env rank n cs st
    else if r = '"' then
      match readDouble false cs with
      | none => .error .err
      | some (src, rest) =>
        match unquote src.length src with
        | none => .error .err
        | some w =>
          if rank = 0 then .ok (.one (.str (String.ofList w)), rest)
          else rankLoop env rank n rest ⟨st.values ++ [.str (String.ofList w)], 0, st.shape⟩
    else if (scanNumber (r :: cs)).1 = [] then .error .err
    else
      match parseNumber env (scanNumber (r :: cs)).1 with
      | none => .error .err
      | some x =>
        if rank = 0 then .ok (.one (.num x), (scanNumber (r :: cs)).2)
        else rankLoop env rank n (scanNumber (r :: cs)).2 ⟨st.values ++ [.num x], 0, st.shape⟩

/-- apl/fmt.go:194-277 `ScanRankArray`.  (For rank 0 the code returns numbers wrapped as `NumExpr`.) -/
def scanRank (env : TextEnv V O) (rank : Int) (text : List Char) : Res (Scanned V O × List Char) :=
  rankLoop env rank text.length text ⟨[], 0, []⟩

/-- `reflect.TypeOf` of an array -/
def sameRep (a b : Repr') : Bool := a == b

/-- apl/fmt.go:167-187 `ParseArray`; the prototype is given by its representation, `none` for no prototype or one that is not uniform -/
def parseArray (env : TextEnv V O) (t : Tower V) (uni : GoType → Bool) (proto : Option GoType) (text : List Char) : Res (UArr V O) :=
  match scanRank env (-1) text with
  | .error e => .error e
  | .ok (.array sh vs, _) =>
    match proto with
    | none => .ok ⟨.mixed, sh, vs⟩
    | some ty =>
      if (t.unify uni ⟨.mixed, sh, vs⟩ true).2 = false then .error .err
      else if sameRep (t.unify uni ⟨.mixed, sh, vs⟩ true).1.rep (.compact ty) = false then .error .err
      else .ok (t.unify uni ⟨.mixed, sh, vs⟩ true).1
  | .ok (_, _) => .error .err

/-- apl/channel.go:226-253 `RuneScanner.ReadRune`: the text that is read from the strings of a channel, with newlines between them.  (If the
first string is empty, the end of the text is reported at once.) -/
def runeText : List (List Char) → List Char
  | [] => []
  | s :: ss => if s = [] then [] else s ++ ss.flatMap (fun w => '\n' :: w)

/-- apl/operators/rank.go:294-312 the loop of `sendParseSubArray`: the values that are sent, and the error that ends the loop, if any.  Each
round takes at least one character. -/
def scanStream (env : TextEnv V O) (rank : Int) : (fuel : Nat) → List Char → List (Scanned V O) × Option Fail
  | 0, _ => ([], some .panic)
  | n + 1, text =>
    match scanRank env rank text with
    | .error e => ([], some e)
    | .ok (.eof, _) => ([], none)
    | .ok (x, rest) => (x :: (scanStream env rank n rest).1, (scanStream env rank n rest).2)

/-- apl/operators/rank.go:290-313 `sendParseSubArray` (`<⍤rank C`) without cancellation: the values sent for the strings of the channel -/
def parseChannel (env : TextEnv V O) (rank : Int) (strings : List (List Char)) : List (Scanned V O) × Option Fail :=
  scanStream env rank ((runeText strings).length + 1) (runeText strings)

end Iv

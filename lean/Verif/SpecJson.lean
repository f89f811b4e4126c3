/-
Specification for C96: a reader of JSON texts (RFC 8259), written without regard to the program.  Numbers are read exactly: `num m e` is
m×10^e.  Escapes of surrogates (`\ud800` …) are not read.
-/
namespace Iv

/-- a JSON value; a number is m×10^e -/
inductive Json
  | null
  | bool (b : Bool)
  | num (m e : Int)
  | str (s : List Char)
  | arr (l : List Json)
  | obj (l : List (List Char × Json))

namespace JRead

/-- insignificant white space -/
def ws (c : Char) : Bool := c == ' ' || c == '\t' || c == '\n' || c == '\r'

def skip (s : List Char) : List Char := s.dropWhile ws

def digit (c : Char) : Bool := decide ('0' ≤ c ∧ c ≤ '9')

/-- the leading digits and the rest -/
def digits (s : List Char) : List Char × List Char := (s.takeWhile digit, s.dropWhile digit)

/-- the number written by decimal digits -/
def value (ds : List Char) : Nat := ds.foldl (fun n c => n * 10 + (c.toNat - 48)) 0

/-- an exponent: `e` or `E`, a sign, digits; no exponent is 0 -/
def exponent (s : List Char) : Option (Int × List Char) :=
  match s with
  | c :: cs =>
    if c = 'e' ∨ c = 'E' then
      let (neg, t) := match cs with | '-' :: t => (true, t) | '+' :: t => (false, t) | _ => (false, cs)
      if (digits t).1 = [] then none else some (if neg then -(value (digits t).1 : Int) else value (digits t).1, (digits t).2)
    else some (0, s)
  | [] => some (0, [])

/-- the digits behind the point -/
def fraction (s : List Char) : Option (List Char × List Char) :=
  match s with
  | '.' :: t => if (digits t).1 = [] then none else some (digits t)
  | _ => some ([], s)

/-- a number: `0` or digits not starting with `0`, a fraction, an exponent -/
def unsigned (s : List Char) : Option ((Int × Int) × List Char) := do
  if (digits s).1 = [] ∨ ((digits s).1.head? = some '0' ∧ (digits s).1.length ≠ 1) then none
  else
    let (f, t) ← fraction (digits s).2
    let (e, r) ← exponent t
    some (((value ((digits s).1 ++ f) : Int), e - f.length), r)

def number (s : List Char) : Option (Json × List Char) :=
  match s with
  | '-' :: t => (unsigned t).map (fun p => (.num (-p.1.1) p.1.2, p.2))
  | _ => (unsigned s).map (fun p => (.num p.1.1 p.1.2, p.2))

def hex (c : Char) : Option Nat :=
  if '0' ≤ c ∧ c ≤ '9' then some (c.toNat - 48)
  else if 'a' ≤ c ∧ c ≤ 'f' then some (c.toNat - 87)
  else if 'A' ≤ c ∧ c ≤ 'F' then some (c.toNat - 55)
  else none

/-- the character of four hexadecimal digits -/
def code (a b c d : Char) : Option Char := do
  let n := (((← hex a) * 16 + (← hex b)) * 16 + (← hex c)) * 16 + (← hex d)
  if 0xd800 ≤ n ∧ n < 0xe000 then none else some (Char.ofNat n)

/-- what the character after a backslash stands for -/
def escape (c : Char) : Option Char :=
  if c = '"' then some '"' else if c = '\\' then some '\\' else if c = '/' then some '/' else if c = 'b' then some '\x08'
  else if c = 'f' then some '\x0c' else if c = 'n' then some '\n' else if c = 'r' then some '\r' else if c = 't' then some '\t' else none

/-- the characters of a string after its first quote -/
def string : List Char → Option (List Char × List Char)
  | [] => none
  | '\\' :: 'u' :: a :: b :: c :: d :: t => do
    let x ← code a b c d
    let (w, r) ← string t
    some (x :: w, r)
  | '\\' :: e :: t => do
    let x ← escape e
    let (w, r) ← string t
    some (x :: w, r)
  | c :: t =>
    if c = '"' then some ([], t)
    else if c.toNat < 32 ∨ c = '\\' then none
    else do
      let (w, r) ← string t
      some (c :: w, r)

mutual

/-- a value at the start of the text and the rest of the text; the first argument bounds the nesting and the length -/
def val : Nat → List Char → Option (Json × List Char)
  | 0, _ => none
  | n + 1, s =>
    match skip s with
    | '"' :: t => (string t).map (fun p => (.str p.1, p.2))
    | '[' :: t => if (skip t).head? = some ']' then some (.arr [], (skip t).drop 1) else (items n t).map (fun p => (.arr p.1, p.2))
    | '{' :: t => if (skip t).head? = some '}' then some (.obj [], (skip t).drop 1) else (members n t).map (fun p => (.obj p.1, p.2))
    | 'n' :: 'u' :: 'l' :: 'l' :: t => some (.null, t)
    | 't' :: 'r' :: 'u' :: 'e' :: t => some (.bool true, t)
    | 'f' :: 'a' :: 'l' :: 's' :: 'e' :: t => some (.bool false, t)
    | t => number t

/-- values separated by commas up to the closing bracket -/
def items : Nat → List Char → Option (List Json × List Char)
  | 0, _ => none
  | n + 1, s => do
    let (x, t) ← val n s
    match skip t with
    | ',' :: r => (items n r).map (fun p => (x :: p.1, p.2))
    | ']' :: r => some ([x], r)
    | _ => none

/-- members `"name":value` separated by commas up to the closing brace -/
def members : Nat → List Char → Option (List (List Char × Json) × List Char)
  | 0, _ => none
  | n + 1, s =>
    match skip s with
    | '"' :: t => do
      let (k, u) ← string t
      match skip u with
      | ':' :: v => do
        let (x, w) ← val n v
        match skip w with
        | ',' :: r => (members n r).map (fun p => ((k, x) :: p.1, p.2))
        | '}' :: r => some ([(k, x)], r)
        | _ => none
      | _ => none
    | _ => none

end
end JRead

/-- The value of a JSON text, `none` if the text is no JSON. -/
def readJson (s : List Char) : Option Json :=
  match JRead.val (s.length + 1) s with
  | some (j, rest) => if JRead.skip rest = [] then some j else none
  | none => none

/-- an array as nested JSON arrays: `f` gives the element at an index -/
def nested : List Nat → (List Nat → Json) → Json
  | [], f => f []
  | d :: ds, f => .arr ((List.range d).map (fun i => nested ds (fun p => f (i :: p))))

end Iv

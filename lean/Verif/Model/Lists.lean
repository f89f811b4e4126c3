import Verif.Model.Value
/-
Cut (apl/primitives/take.go), deal and roll (apl/primitives/query.go), splitting and joining of strings (apl/primitives/enclose.go).
-/
namespace Iv
variable {V : Type}

/-! ### Cut -/

/-- The loop of `cut` (apl/primitives/take.go:243-254) over the positions, `prev` is `idx[i-1]`. -/
def cutIdx (origin : Int) (len : Nat) : Option Int → List Int → Res (List Int)
  | _, [] => .ok []
  | prev, l :: ls =>
    let i := l - origin
    let i := if i < 0 then len + i else i
    if prev.any (fun p => i ≤ p) then .error .err
    else if i < 0 ∨ i ≥ len then .error .err
    else do
      let rest ← cutIdx origin len (some i) ls
      return i :: rest

/-- The loop of `cut` (apl/primitives/take.go:258-265): the segments `r[idx[i]:idx[i+1]]`. -/
def cutParts (r : List V) : List Int → List (List V)
  | [] => []
  | [i] => [r.drop i.toNat]
  | i :: j :: is => (r.drop i.toNat).take (j - i).toNat :: cutParts r (j :: is)

/-- The result of `cut`: one list, or a list of lists. -/
inductive CutRes (V : Type)
  | tail (l : List V)
  | parts (l : List (List V))
deriving DecidableEq, Repr

/-- apl/primitives/take.go:237-268 `cut`: `rank` and `L` are the rank and the elements of the left argument, `r` is the list.
The slice expressions are in range, see `cutIdx`; copying is not modelled here. -/
def cut (origin : Int) (rank : Nat) (L : List Int) (r : List V) : Res (CutRes V) :=
  if rank ≠ 1 then .error .err
  else do
    let idx ← cutIdx origin r.length none L
    match idx with
    | [i] => return .tail (r.drop i.toNat)
    | is => return .parts (cutParts r is)

/-! ### Deal and roll -/

/-- One step of `rand.Perm` of the Go library: `m[i] = m[j]; m[j] = i` for the drawn number `j ≤ i`; `m` are the first `i` entries. -/
def permStep (m : List Nat) (j : Nat) : List Nat :=
  (m ++ [m.getD j 0]).set j m.length

/-- `rand.Perm(n)` of the Go library: `draw i` is the outcome of `Intn(i+1)` (of any value from 0 up to `i`). -/
def goPerm (draw : Nat → Nat) (n : Nat) : List Nat := (List.range n).foldl (fun m i => permStep m (draw i)) []

/-- apl/primitives/query.go:89-105 `deal` -/
def deal (draw : Nat → Nat) (origin : Int) (n m : Int) : Res (List Int) :=
  if n ≤ 0 ∨ m < n then .error .err
  else .ok (((goPerm draw m.toNat).take n.toNat).map (fun (p : Nat) => (p : Int) + origin))

/-- The outcome of `rollNumber`: an integer, or a random floating point number (not modelled further). -/
inductive Rolled
  | int (i : Int)
  | float
deriving DecidableEq, Repr

/-- apl/primitives/query.go:68-86 `rollNumber` for an integer `m`: `drawn` is the outcome of `rand.Intn(m)`. -/
def rollNumber (drawn : Nat) (origin m : Int) : Rolled :=
  if m < 0 then .float
  else if m = 0 then .float
  else .int ((drawn : Int) + origin)

/-- apl/primitives/query.go:29-57 `roll` for integers: `draw i m` is the outcome of the `i`-th call of `rand.Intn(m)`. -/
def roll (draw : Nat → Int → Nat) (origin : Int) : Val Int → Val Rolled
  | .scalar m => .scalar (rollNumber (draw 0 m) origin m)
  | .empty => .empty
  | .arr _ a =>
    if a.data.length = 0 then .empty
    else .arr .mixed ⟨a.shape, (List.range a.data.length).map (fun i => rollNumber (draw i (a.data.getD i 0)) origin (a.data.getD i 0))⟩
  | .bad _ _ => .empty

/-! ### Strings -/

/-- `strings.Join` of the Go library -/
def joinStr (sep : List Char) : List (List Char) → List Char
  | [] => []
  | [s] => s
  | s :: t :: ss => s ++ sep ++ joinStr sep (t :: ss)

/-- `strings.Index` of the Go library: the first position where `sep` starts -/
def indexStr (s sep : List Char) : Option Nat :=
  match s with
  | [] => if sep = [] then some 0 else none
  | c :: cs => if sep.isPrefixOf (c :: cs) then some 0 else (indexStr cs sep).map (· + 1)

/-- `strings.Split` of the Go library for a separator that is not empty: cut at every occurrence of `sep`, from the left, without overlap.
The first argument bounds the number of cuts (`strings.Count` in Go). -/
def splitStr (sep : List Char) : Nat → List Char → List (List Char)
  | 0, s => [s]
  | n + 1, s =>
    match indexStr s sep with
    | none => [s]
    | some i => s.take i :: splitStr sep n (s.drop (i + sep.length))

/-- `strings.Fields` of the Go library; `field` is the part of the current field that has been read -/
def fieldsStr (space : Char → Bool) : List Char → List Char → List (List Char)
  | field, [] => if field = [] then [] else [field]
  | field, c :: cs =>
    if space c then (if field = [] then fieldsStr space [] cs else field :: fieldsStr space [] cs)
    else fieldsStr space (field ++ [c]) cs

/-- apl/primitives/enclose.go:66-69 `strcat` -/
def strcat (v : List (List Char)) : List Char := joinStr [] v

/-- apl/primitives/enclose.go:71-74 `strjoin` -/
def strjoin (l : List Char) (v : List (List Char)) : List Char := joinStr l v

/-- apl/primitives/enclose.go:76-83 `runesplit` (for strings that are valid UTF-8) -/
def runesplit (r : List Char) : List (List Char) := r.map (fun c => [c])

/-- apl/primitives/enclose.go:88-98 `strsplit`; `space` is `unicode.IsSpace` -/
def strsplit (space : Char → Bool) (l r : List Char) : List (List Char) :=
  if l = [] then fieldsStr space [] r else splitStr l r.length r

/-- apl/primitives/enclose.go:47-60 `strvec.To`: the elements of an array as strings, `none` if one of them is not a string -/
def strvec {α : Type} (str : α → Option (List Char)) (data : List α) : Option (List (List Char)) := data.mapM str

/-- apl/primitives/enclose.go:100-106 `first`; `none` is an `EmptyArray` -/
def firstOf (r : List V) : Option V := r.head?

end Iv

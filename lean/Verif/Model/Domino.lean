import Verif.Model.Dot
import Verif.Model.Scalar
import Verif.Model.Transpose
/-
apl/primitives/domino.go: matrix inverse and matrix divide.
The work arrays `A`, `P`, `b` and `x` have length n (lines 121-139); they are modelled as functions of the index, which is below n in every
access.
-/
namespace Iv
variable {K : Type}

/-- The elementary functions used by domino.go: arith1("|"), arith1("+") (conjugate), arith1("÷"), arith2("+"), arith2("×"), arith2("÷"),
arith2("-"), arith2("<") (lines 159-163, 226-228, 91, 102, 40, 63), `apl.Int(0)`, `apl.Int(1)` and `isEqual(a, apl.Int(0), x)` (line 193). -/
structure MatOps (K : Type) where
  abs : K → Res K
  conj : K → Res K
  recip : K → Res K
  add : K → K → Res K
  mul : K → K → Res K
  div : K → K → Res K
  sub : K → K → Res K
  less : K → K → Res Bool
  zero : K
  one : K
  isZero : K → Bool

/-- a loop `for i := lo; i < lo+n; i++` -/
def upLoop {S : Type} (body : Nat → S → Res S) : (n lo : Nat) → S → Res S
  | 0, _, s => .ok s
  | n + 1, lo, s => do
    let s ← body lo s
    upLoop body n (lo + 1) s

/-- assignment to an element of a 2d slice -/
def setMat (A : Nat → Nat → K) (r c : Nat) (v : K) : Nat → Nat → K := fun r' c' => if r' = r ∧ c' = c then v else A r' c'

/-- assignment to an element of a slice -/
def setVec {X : Type} (x : Nat → X) (i : Nat) (v : X) : Nat → X := fun k => if k = i then v else x k

/-- apl/primitives/domino.go:174-190: the body of the search of the largest element of column `i`; the state is `max` and `imax` -/
def MatOps.luMaxStep (o : MatOps K) (A : Nat → Nat → K) (i k : Nat) (s : K × Nat) : Res (K × Nat) := do
  let absA ← o.abs (A k i)
  let lt ← o.less s.1 absA
  return if lt then (absA, k) else s

/-- apl/primitives/domino.go:198-199: swap of two elements of a slice (of numbers, or of rows) -/
def swapAt {X : Type} (x : Nat → X) (i j : Nat) : Nat → X := fun k => if k = i then x j else if k = j then x i else x k

/-- apl/primitives/domino.go:209-219: the body of the loop over the columns -/
def MatOps.luElimStep (o : MatOps K) (i j k : Nat) (A : Nat → Nat → K) : Res (Nat → Nat → K) := do
  let v ← o.mul (A j i) (A i k)
  let v ← o.sub (A j k) v
  return setMat A j k v

/-- apl/primitives/domino.go:203-220: the body of the loop over the rows below row `i` -/
def MatOps.luRowStep (o : MatOps K) (n i j : Nat) (A : Nat → Nat → K) : Res (Nat → Nat → K) := do
  let v ← o.div (A j i) (A i i)
  upLoop (o.luElimStep i j) (n - (i + 1)) (i + 1) (setMat A j i v)

/-- apl/primitives/domino.go:197-201 -/
def luPivot (i imax : Nat) (s : (Nat → Nat → K) × (Nat → Nat)) : (Nat → Nat → K) × (Nat → Nat) :=
  if imax ≠ i then (swapAt s.1 i imax, swapAt s.2 i imax) else s

/-- apl/primitives/domino.go:172-221: the body of the outer loop; the state is `A` and `P` -/
def MatOps.luStep (o : MatOps K) (n i : Nat) (s : (Nat → Nat → K) × (Nat → Nat)) : Res ((Nat → Nat → K) × (Nat → Nat)) := do
  let m ← upLoop (o.luMaxStep s.1 i) (n - i) i (o.zero, i)
  if o.isZero m.1 then .error .err
  else do
    let s := luPivot i m.2 s
    let A ← upLoop (o.luRowStep n i) (n - (i + 1)) (i + 1) s.1
    return (A, s.2)

/-- apl/primitives/domino.go:158-223 `lu` -/
def MatOps.lu (o : MatOps K) (n : Nat) (A : Nat → Nat → K) : Res ((Nat → Nat → K) × (Nat → Nat)) :=
  upLoop (o.luStep n) n 0 (A, fun i => i)

/-- A Go function that writes to `x` and may return an error: `x` keeps what was written before the error. -/
def Writes (K : Type) := (Nat → Option K) → Option Fail × (Nat → Option K)

/-- a loop of such a function: it is left by the first error -/
def wLoop (body : Nat → Writes K) : List Nat → Writes K
  | [], x => (none, x)
  | i :: is, x =>
    match body i x with
    | (some e, x) => (some e, x)
    | (none, x) => wLoop body is x

/-- apl/primitives/domino.go:233-241, 246-254: `x[i] = x[i] - c*x[k]`.  A nil value is no number, the elementary functions return an error
for it. -/
def MatOps.subMul (o : MatOps K) (c : K) (i k : Nat) : Writes K := fun x =>
  match x k, x i with
  | some xk, some xi =>
    match o.mul c xk with
    | .error e => (some e, x)
    | .ok v =>
      match o.sub xi v with
      | .error e => (some e, x)
      | .ok v => (none, setVec x i (some v))
  | _, _ => (some .err, x)

/-- apl/primitives/domino.go:230-243: the body of the forward substitution -/
def MatOps.fwdStep (o : MatOps K) (A : Nat → Nat → K) (b : Nat → K) (P : Nat → Nat) (i : Nat) : Writes K := fun x =>
  wLoop (fun k => o.subMul (A i k) i k) (List.range i) (setVec x i (some (b (P i))))

/-- apl/primitives/domino.go:256-260: `x[i] = x[i] ÷ A[i][i]` -/
def MatOps.divDiag (o : MatOps K) (A : Nat → Nat → K) (i : Nat) : Writes K := fun x =>
  match x i with
  | none => (some .err, x)
  | some xi =>
    match o.div xi (A i i) with
    | .error e => (some e, x)
    | .ok v => (none, setVec x i (some v))

/-- apl/primitives/domino.go:244-261: the body of the back substitution -/
def MatOps.backStep (o : MatOps K) (n : Nat) (A : Nat → Nat → K) (i : Nat) : Writes K := fun x =>
  match wLoop (fun k => o.subMul (A i k) i k) (List.range' (i + 1) (n - (i + 1))) x with
  | (some e, x) => (some e, x)
  | (none, x) => o.divDiag A i x

/-- apl/primitives/domino.go:225-263 `luSolve` -/
def MatOps.luSolve (o : MatOps K) (n : Nat) (A : Nat → Nat → K) (b : Nat → K) (P : Nat → Nat) : Writes K := fun x =>
  match wLoop (o.fwdStep A b P) (List.range n) x with
  | (some e, x) => (some e, x)
  | (none, x) => wLoop (o.backStep n A) (List.range n).reverse x

/-- `x[i].Copy()` (domino.go:151) panics for nil -/
def copyOf (v : Option K) : Res K :=
  match v with
  | some v => .ok v
  | none => .error .panic

/-- apl/primitives/domino.go:140-153: the body of the loop over the columns of the right hand side.  `x` is reused from column to column, and
the error of `luSolve` is ignored.  The column of the result is returned. -/
def MatOps.solveCol (o : MatOps K) (n : Nat) (A : Nat → Nat → K) (P : Nat → Nat) (cols : Nat) (rhs : List K) (k : Nat)
    (x : Nat → Option K) : Res (List K × (Nat → Option K)) := do
  let bs ← (List.range n).mapM fun i => sliceAt rhs (i * cols + k)
  let x := (o.luSolve n A (fun i => bs.getD i o.zero) P x).2
  let col ← (List.range n).mapM fun i => copyOf (x i)
  return (col, x)

/-- apl/primitives/domino.go:140-153: all columns -/
def MatOps.solveCols (o : MatOps K) (n : Nat) (A : Nat → Nat → K) (P : Nat → Nat) (cols : Nat) (rhs : List K) :
    List Nat → (Nat → Option K) → Res (List (List K))
  | [], _ => .ok []
  | k :: ks, x => do
    let r ← o.solveCol n A P cols rhs k x
    let rest ← o.solveCols n A P cols rhs ks r.2
    return r.1 :: rest

/-- the result array: `res.Values[i*cols+k] = x[i]` of column `k` -/
def fromCols (zero : K) (n cols : Nat) (cs : List (List K)) : List K :=
  (List.range n).flatMap fun i => (List.range cols).map fun k => (cs.getD k []).getD i zero

/-- apl/primitives/domino.go:117-154: `al` and `ar` are matrices, `ar` is square -/
def MatOps.dominoSquare (o : MatOps K) (uk : List K → Kind) (al ar : Arr K) : Res (Val K) := do
  let n := ar.shape.headD 0
  let cols := al.shape.getD 1 0
  let data ← (List.range n).mapM fun i => (List.range n).mapM fun k => sliceAt ar.data (i * n + k)
  let s ← o.lu n fun i k => (data.getD i []).getD k o.zero
  let cs ← o.solveCols n s.1 s.2 cols al.data (List.range cols) fun _ => none
  let d := fromCols o.zero n cols cs
  return .arr (uk d) ⟨[n, cols], d⟩

/-- the elementary functions as operands of the inner product -/
def liftOp (f : K → K → Res K) : K → K → ExceptT Fail Id K := fun x y => ofRes (f x y)

/-- a type assertion to an array -/
def asArr (v : Val K) : Res (Arr K) :=
  match v with
  | .arr _ a => .ok a
  | _ => .error .panic

/-- apl/primitives/domino.go:88-115: the normal equations of an overdetermined system -/
def MatOps.normalEq (o : MatOps K) (origin : Int) (uk : List K → Kind) (al ar : Arr K) : Res (Arr K × Arr K) := do
  let h ← scalarMonadic uk o.conj (.arr (uk []) ar)
  let AH ← transpose origin none h
  let AHA ← (inner (m := Id) uk (liftOp o.add) (liftOp o.mul) AH (.arr (uk []) ar)).run
  let AHB ← (inner (m := Id) uk (liftOp o.add) (liftOp o.mul) AH (.arr (uk []) al)).run
  let ar ← asArr AHA
  let al ← asArr AHB
  return (al, ar)

/-- apl/primitives/domino.go:73-83: a vector becomes a matrix with one column -/
def colMatrix (al : Arr K) : Res (Arr K) :=
  match al.shape with
  | [n] =>
    -- a `Reshape` to the same number of elements; an IntArray without elements becomes the EmptyArray of rank 0
    .ok ⟨[n, 1], al.data⟩
  | [_, _] => .ok al
  | _ => .error .err

/-- apl/primitives/domino.go:90: rs[0] > rs[1] -/
def MatOps.prepare (o : MatOps K) (origin : Int) (uk : List K → Kind) (al ar : Arr K) (r c : Nat) : Res (Arr K × Arr K) :=
  if r > c then o.normalEq origin uk al ar else .ok (al, ar)

/-- apl/primitives/domino.go:56-155 `domino2` for two arrays (line 21: both are converted by ToArray) -/
def MatOps.domino2 (o : MatOps K) (origin : Int) (uk : List K → Kind) (al ar : Arr K) : Res (Val K) :=
  if ar.data.length = 1 then array2 uk o.div (.arr (uk []) al) (.arr (uk []) ar)
  else
    match ar.shape with
    | [r, c] =>
      if r < c then .error .err
      else do
        let al ← colMatrix al
        if al.shape.headD 0 ≠ r then .error .err
        else do
          let p ← o.prepare origin uk al ar r c
          o.dominoSquare uk p.1 p.2
    | _ => .error .err

/-- apl/primitives/domino.go:47-52: the identity matrix -/
def MatOps.identity (o : MatOps K) (n : Nat) : Arr K :=
  ⟨[n, n], (List.range n).flatMap fun i => (List.range n).map fun k => if k = i then o.one else o.zero⟩

/-- apl/primitives/domino.go:29-54 `domino` for an array -/
def MatOps.domino (o : MatOps K) (origin : Int) (uk : List K → Kind) (ar : Arr K) : Res (Val K) :=
  match ar.shape with
  | [] => .ok .empty
  | [_] => scalarMonadic uk o.recip (.arr (uk []) ar)
  | [r, c] => if r ≠ c then .error .err else o.domino2 origin uk (o.identity r) ar
  | _ => .error .err

end Iv

import Verif.Model.Dot
import Verif.Model.Scalar
import Verif.Model.Int
/-
apl/primitives/decode.go: decode ⊥ and encode ⊤.
The arithmetic functions (`arith2("×", mul2)`, …) are parameters.
-/
namespace Iv
variable {α : Type}

/-- The functions used: `fmul`, `fsub`, `fdiv`, `+`, residue (`mod L R` is `L|R`), floor, comparison with 0, and
the numbers `apl.Int(0)`, `apl.Int(1)`. -/
structure EncOps (α : Type) where
  zero : α
  one : α
  add : α → α → Res α
  mul : α → α → Res α
  sub : α → α → Res α
  div : α → α → Res α
  mod : α → α → Res α
  floor : α → Res α
  isZero : α → Res Bool

/-- apl/primitives/decode.go:60-66: from the right, `p[k-1] = p[k] × p[k-1]`. -/
def mulScan (o : EncOps α) : List α → Res (List α)
  | [] => .ok []
  | [v] => .ok [v]
  | v :: w :: rest => do
    let r ← mulScan o (w :: rest)
    match r with
    | [] => .error .panic
    | h :: _ => do
      let v' ← o.mul h v
      return v' :: r

/-- apl/primitives/decode.go:55-67: one row of the power matrix: shift to the left, put 1 at the end,
multiply from the right. -/
def powerRow (o : EncOps α) (row : List α) : Res (List α) :=
  match row with
  | [] => .ok []
  | _ :: xs => mulScan o (xs ++ [o.one])

/-- apl/primitives/decode.go:47-67: the power matrix, row by row (`n` is the length of the last axis). -/
def powerRows (o : EncOps α) (data : List α) (n : Nat) : Res (List α) := do
  let rows ← forLoop (fun i => powerRow o ((data.drop (i * n)).take n)) (data.length / n) 0
  return rows.flatten

/-- apl/primitives/decode.go:74-87 `extendAxis` (of this file; the same loop as the one of reduce.go). -/
def extendAxisD (a : Arr α) (axis n : Nat) : Res (Arr α) := extendAxis n axis a

/-- apl/primitives/decode.go:26-71 `decode`, both arguments converted by `ToArray`. -/
def decode (uk : List α → Kind) (o : EncOps α) (L R : Val α) : ExceptT Fail Id (Val α) :=
  match toArrayVal uk L, toArrayVal uk R with
  | .arr _ a, .arr kr b =>
    match a.shape.getLast?, b.shape.head? with
    | some n, some m => do
      let (a, b) ← ofRes (
        if n ≠ m then
          if n = 1 then do let a' ← extendAxisD a (a.shape.length - 1) m; return (a', b)
          else if m = 1 then do let b' ← extendAxisD b 0 n; return (a, b')
          else .error .err
        else .ok (a, b))
      let p ← ofRes (powerRows o a.data (a.shape.getLastD 0))
      inner uk (fun x y => ofRes (o.add x y)) (fun x y => ofRes (o.mul x y)) (.arr (uk p) ⟨a.shape, p⟩) (.arr kr b)
    | _, _ => throw .panic
  | _, _ => throw .panic

/-- apl/primitives/decode.go:149-180: the loop of `encodeVecScalar` from the last radix to the first:
`Z[i] = L[i]|C[i+1]`, `C[i] = (C[i+1]-Z[i])÷L[i]`, or 0 if `L[i]` is 0.  Result: `Z` and `C[0]`. -/
def encLoop (o : EncOps α) : List α → (r : α) → Res (List α × α)
  | [], r => .ok ([], r)
  | l :: ls, r => do
    let (zs, c) ← encLoop o ls r
    let z ← o.mod l c
    if ← o.isZero l then return (z :: zs, o.zero)
    else do
      let d ← o.sub c z
      let d ← o.div d l
      return (z :: zs, d)

/-- apl/primitives/decode.go:143-182 `encodeVecScalar`. -/
def encodeVecScalar (o : EncOps α) (L : List α) (r : α) : Res (List α) := do
  let (zs, _) ← encLoop o L r
  return zs

/-- apl/primitives/decode.go:208-233: the loop of `enc`; the list holds `rad[i+1:]` (after `powerradix`) followed
by the final `apl.Int(1)`: the divisors `p`. -/
def encDigits (o : EncOps α) : (ps : List α) → (r : α) → Res (List α)
  | [], _ => .ok []
  | p :: ps, r => do
    let v ← o.div r p
    let v ← if ps.isEmpty then .ok v else o.floor v
    let u ← o.mul v p
    let r ← o.sub r u
    let rest ← encDigits o ps r
    return v :: rest

/-- apl/primitives/decode.go:261-273 `powerradix`: `rad[i] = rad[i] × rad[i+1]` for i from len-2 down to 1.  (Its
error is ignored by the caller, line 289.) -/
def radScan (o : EncOps α) : List α → Res (List α)
  | [] => .ok []
  | [v] => .ok [v]
  | v :: w :: rest => do
    let r ← radScan o (w :: rest)
    match r with
    | [] => .error .panic
    | h :: _ => do
      let v' ← o.mul v h
      return v' :: r

/-- apl/primitives/decode.go:205-247 `enc` with the radix vector of one column of `L`: `rad[0]` is not touched by
`powerradix`. -/
def encColumn (o : EncOps α) (col : List α) (r : α) : Res (List α) :=
  match col with
  | [] => .error .panic  -- rad[0]
  | l0 :: ls => do
    let rad ← radScan o ls
    let vec ← encDigits o (rad ++ [o.one]) r
    if ← o.isZero l0 then return vec
    else match vec with
      | [] => .error .panic
      | v :: vs => do
        let v' ← o.mod l0 v
        return v' :: vs

/-- apl/primitives/decode.go:184-313 `encodeArray`: `rs`, `rd` are shape and elements of `R` (no axes and one
element for a scalar).  Column `off` of the result is written to the positions `j*NN+off`. -/
def encodeArray (uk : List α → Kind) (o : EncOps α) (a : Arr α) (rs : List Nat) (rd : List α) : Res (Val α) :=
  match a.shape with
  | [] => .error .panic
  | n :: ls => do
    let shape := n :: ls ++ rs
    let NL := if ls = [] then 1 else prod ls
    let NN := if ls ++ rs = [] then 1 else prod (ls ++ rs)
    let cols ← forLoop (fun i => do
      let rad ← forLoop (fun k => sliceAt a.data (k * NL + i)) n 0
      forLoop (fun k => do let r ← sliceAt rd k; encColumn o rad r) rd.length 0) NL 0
    let writes := cols.flatten.zipIdx.flatMap (fun p => p.1.zipIdx.map (fun q => (q.2 * NN + p.2, some q.1)))
    let d ← noNil (applySets (List.replicate (prod shape) none) writes)
    return .arr (uk d) ⟨shape, d⟩

/-- apl/primitives/decode.go:90-140 `encode` for arguments that are not `EmptyArray`. -/
def encode (uk : List α → Kind) (o : EncOps α) (L R : Val α) : Res (Val α) :=
  match L, R with
  | .scalar x, .scalar y => do let v ← o.mod x y; return .scalar v
  | .scalar x, .arr k b => array2 uk o.mod (.scalar x) (.arr k b)
  | .arr _ a, .scalar y =>
    if a.shape.length = 1 then do
      let v ← encodeVecScalar o a.data y
      return .arr (uk v) ⟨[v.length], v⟩
    else encodeArray uk o a [] [y]
  | .arr _ a, .arr _ b => encodeArray uk o a b.shape b.data
  | _, _ => .error .panic

/-- Exact arithmetic of rationals; `floor` is assumed exact (see `ratOps`). -/
def exactOps (floor : Rat → Rat) : EncOps Rat :=
  { zero := 0, one := 1, add := fun x y => .ok (x + y), mul := fun x y => .ok (x * y), sub := fun x y => .ok (x - y),
    div := fun x y => if y = 0 then .error .err else .ok (x / y),
    mod := fun x y => match genAbs2 (ratOps (fun q => some (floor q))) x y with | some v => .ok v | none => .error .err
    floor := fun x => .ok (floor x), isZero := fun x => .ok (decide (x = 0)) }

end Iv

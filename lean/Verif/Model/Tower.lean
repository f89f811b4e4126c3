import Verif.Model.Int
/-
apl/tower.go and the type promotion of apl/primitives/elementary.go (`arith1`, `arith2`).
The number types of a tower are opaque: `V` is the type of all values of the registered number types,
`num c v` is a value of the type of class `c`.
-/
namespace Iv

/-- A number: Bool, Int, or a number of a registered type of the tower. -/
inductive TNum (V : Type) where
  | bool (b : Bool)
  | int (n : Int)
  | num (c : Nat) (v : V)
deriving DecidableEq

/-- apl/tower.go:8-13 `Tower`.  `len` is the number of registered types, which have the classes
0..len-1 (checked by `SetTower`, lines 17-34).  `imp` is `Import` (for a Bool or an Int), `up c` the `Uptype`
function of class `c` (`none`: second result false).
Assumption on the registered functions: `Uptype` of class `c` returns a number of class `c+1`, `Import` a
number of class `impClass` (0 in numbers/register.go and big/register.go). -/
structure Tower (V : Type) where
  len : Nat
  impClass : Nat
  imp : BI → V
  up : Nat → V → Option V

variable {V : Type}

/-- Position in the tower (apl/tower.go:152-176 `ToNumeric`: Bool -2, Int -1). -/
def cls : TNum V → Int
  | .bool _ => -2
  | .int _ => -1
  | .num c _ => c

/-- Import of a Bool or Int (apl/tower.go:79, 86, 90, 94); other numbers are unchanged. -/
def Tower.importN (t : Tower V) : TNum V → TNum V
  | .bool b => .num t.impClass (t.imp (.bool b))
  | .int n => .num t.impClass (t.imp (.int n))
  | x => x

/-- apl/tower.go:107-114 (116-123): `for i := na.Class; i < nb.Class; i++ { a, ok = na.Uptype(a); ...;
na = t.idx[i+1] }`. -/
def Tower.upLoop (t : Tower V) : (steps c : Nat) → V → Res V
  | 0, _, v => .ok v
  | s + 1, c, v =>
    match t.up c v with
    | none => .error .err
    | some w => t.upLoop s (c + 1) w

/-- apl/tower.go:98-122: both numbers are of registered types. -/
def Tower.sameNum (t : Tower V) (ca : Nat) (va : V) (cb : Nat) (vb : V) : Res (TNum V × TNum V) :=
  if ¬ ca < t.len then .error .err
  else if ¬ cb < t.len then .error .err
  else do
    let va ← t.upLoop (cb - ca) ca va
    let ca' := max ca cb
    let vb ← t.upLoop (ca' - cb) cb vb
    return (.num ca' va, .num ca' vb)

/-- apl/tower.go:67-123 `SameType`. -/
def Tower.sameType (t : Tower V) (a b : TNum V) : Res (TNum V × TNum V) :=
  match a, b with
  | .bool _, .bool _ => .ok (a, b)
  | .int _, .int _ => .ok (a, b)
  | .bool x, .int _ => .ok (.int (bool2int x), b)
  | .int _, .bool y => .ok (a, .int (bool2int y))
  | .num ca va, .num cb vb => if ca = cb then .ok (a, b) else t.sameNum ca va cb vb
  | a, b =>
    match t.importN a, t.importN b with
    | .num ca va, .num cb vb => t.sameNum ca va cb vb
    | _, _ => .error .err

/-- A type descriptor found for a number: the ones for Bool and Int made by `ToNumeric`
(apl/tower.go:152-171) or that of a registered class. -/
inductive Numeric | bool | int | cls (c : Nat)
deriving DecidableEq

/-- apl/tower.go:152-176 `ToNumeric`. -/
def Tower.toNumeric (t : Tower V) : TNum V → Option Numeric
  | .bool _ => some .bool
  | .int _ => some .int
  | .num c _ => if c < t.len then some (.cls c) else none

/-- The `Uptype` function of a descriptor; the type assertions inside panic on a number of another
type. -/
def Tower.uptype (t : Tower V) : Numeric → TNum V → Res (Option (TNum V))
  | .bool, .bool b => .ok (some (.int (bool2int b)))
  | .int, x => .ok (some (t.importN x))
  | .cls c, .num c' v => if c = c' then .ok ((t.up c v).map (fun w => .num (c + 1) w)) else .error .panic
  | _, _ => .error .panic

/-- apl/primitives/elementary.go:143, 194: `num = a.Tower.Numbers[reflect.TypeOf(n)]`.  Bool and Int are
not in the map: the descriptor is nil for them. -/
def Tower.lookupType (t : Tower V) : TNum V → Option Numeric
  | .num c _ => if c < t.len then some (.cls c) else none
  | _ => none

/-- apl/primitives/elementary.go:176-186: the loop of `arith2`.  `cnt` is the number of iterations left
(`for i := num.Class; i < len(a.Tower.Numbers); i++`).  A nil descriptor panics when its `Uptype` is needed;
a failed `Uptype` of the right number leaves a nil there (line 193 ignores `ok`), on which the next call
panics. -/
def Tower.arith2Loop {ρ} (t : Tower V) (fn : TNum V → TNum V → Option ρ) :
    (cnt : Nat) → (num : Option Numeric) → (l r : TNum V) → Res ρ
  | 0, _, _, _ => .error .err
  | cnt + 1, num, l, r =>
    match fn l r with
    | some v => .ok v
    | none =>
      match num with
      | none => .error .panic
      | some num => do
        match ← t.uptype num l with
        | none => .error .err
        | some l' =>
          match ← t.uptype num r with
          | none => .error .panic
          | some r' => t.arith2Loop fn cnt (t.lookupType l') l' r'

/-- `reflect.TypeOf(L) == reflect.TypeOf(R)`. -/
def sameGoType : TNum V → TNum V → Bool
  | .bool _, .bool _ => true
  | .int _, .int _ => true
  | .num c _, .num c' _ => c == c'
  | _, _ => false

/-- apl/primitives/elementary.go:147-189 `arith2` on two numbers. -/
def Tower.arith2 {ρ} (t : Tower V) (fn : TNum V → TNum V → Option ρ) (L R : TNum V) : Res ρ :=
  match (if sameGoType L R then fn L R else none) with
  | some v => .ok v
  | none => do
    let (l, r) ← t.sameType L R
    match t.toNumeric l with
    | none => .error .err
    | some num => t.arith2Loop fn ((t.len : Int) - cls l).toNat (some num) l r

/-- apl/primitives/elementary.go:114-142: the loop of `arith1`, which has no bound of its own: `fuel` is
the number of iterations allowed here, `none` means that it ran out. -/
def Tower.arith1Loop {ρ} (t : Tower V) (fn : TNum V → Option ρ) :
    (fuel : Nat) → (num : Option Numeric) → (n : TNum V) → Option (Res ρ)
  | 0, _, _ => none
  | fuel + 1, num, n =>
    match fn n with
    | some v => some (.ok v)
    | none =>
      match num with
      | none => some (.error .panic)
      | some num =>
        match t.uptype num n with
        | .error e => some (.error e)
        | .ok none => some (.error .err)
        | .ok (some n') => t.arith1Loop fn fuel (t.lookupType n') n'

/-- apl/primitives/elementary.go:114-142 `arith1` on a number. -/
def Tower.arith1 {ρ} (t : Tower V) (fn : TNum V → Option ρ) (fuel : Nat) (R : TNum V) : Option (Res ρ) :=
  match fn R with
  | some v => some (.ok v)
  | none =>
    match t.toNumeric R with
    | none => some (.error .err)
    | some num => t.arith1Loop fn fuel (some num) R

/-- apl/primitives/compare.go:105-110, 57-89: the six comparison functions from the methods `Equals`
and `Less` of the number type (`none`: not handled). -/
inductive Cmp | eq | lt | gt | ne | le | ge
deriving DecidableEq, Repr

def compareFn {N : Type} (equals less : N → N → Option Bool) (op : Cmp) (L R : N) : Option Bool :=
  match op with
  | .eq => equals L R
  | .lt => less L R
  | .gt => do let eq ← equals L R; let ls ← less L R; return !eq && !ls
  | .ne => do let eq ← equals L R; return !eq
  | .le => do let eq ← equals L R; let ls ← less L R; return eq || ls
  | .ge => do let eq ← equals L R; let ls ← less L R; return eq || !ls

/-- apl/bool.go:23-29 `Less` on Bools. -/
def boolLess (i j : Bool) : Option Bool := some (!i && j)
/-- apl/primitives/compare.go:105-110: types without an `Equals` method are compared by Go's `==`. -/
def goEquals {N : Type} [DecidableEq N] (i j : N) : Option Bool := some (decide (i = j))

/-- apl/primitives/compare.go:58-92 on two numbers of the same type: Bool (==, bool.go:23-29), Int (==,
int.go:63-65), or a registered type with its `Equals`/`Less` (`eqs c`, `les c`).  `arith2` never calls it on numbers of
different types (C34_arith2). -/
def cmpNum (eqs les : Nat → V → V → Option Bool) (op : Cmp) : TNum V → TNum V → Option Bool
  | .bool l, .bool r => compareFn goEquals boolLess op l r
  | .int l, .int r => compareFn goEquals intLess op l r
  | .num c l, .num _ r => compareFn (eqs c) (les c) op l r
  | _, _ => none

/-- apl/tower.go:17-34 `SetTower`: the slice `idx` of the number types by class, or an error.  `nums` are the entries of the map
`Numbers` with their classes; the inner loop `range t.Numbers` (line 20) visits them in an unspecified order, which may differ
each time: `order i` is the order of the i-th pass.  A later entry of the same class overwrites an earlier one (line 23). -/
def setTower {ν : Type} (n : Nat) (order : Nat → List (Int × ν)) : Res (List ν) :=
  (List.range n).mapM (fun i =>
    match ((order i).filter (fun e => e.1 = (i : Int))).getLast? with
    | some e => .ok e.2
    | none => .error .err)

end Iv

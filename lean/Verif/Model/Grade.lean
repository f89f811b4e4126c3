import Verif.Model.Search
/-
apl/primitives/grade.go and `intervalindex` of apl/primitives/iota.go.
`less x y` is the first result of `x.(lesser).Less(y)`.
The library function `sort.Sort` is not modelled as an algorithm: it may do any sequence of `Swap` calls that
ends in an order that the `Less` method accepts as sorted.
-/
namespace Iv
variable {α : Type}

/-- apl/primitives/grade.go:185-188 `sortIndexes`. -/
structure SortIdx (α : Type) where
  b : List (List α)
  idx : List Int
deriving DecidableEq

/-- apl/primitives/grade.go:65-80: the rows of `b`, the ravelled major cells. -/
def gradeRows (a : Arr α) : Res (List (List α)) :=
  match a.shape with
  | [] => .error .err
  | [n] => forLoop (fun i => do let v ← sliceAt a.data i; return [v]) n 0
  | n :: s => forLoop (fun i => forLoop (fun k => sliceAt a.data (i * prod s + k)) (prod s) 0) n 0

/-- apl/primitives/grade.go:58-169 `gradeSetup`.  `prep` is the check and conversion of the element types
(lines 82-146; modelled for numbers by `gradePrep`), `none` if it fails.  `b[0][0]` panics if there is no first
element. -/
def gradeSetup (prep : List (List α) → Option (List (List α))) (origin : Int) (a : Arr α) : Res (SortIdx α) := do
  let b ← gradeRows a
  match b with
  | (_ :: _) :: _ =>
    match prep b with
    | none => .error .err
    | some b' => .ok ⟨b', (List.range b.length).map (fun (i : Nat) => (i : Int) + origin)⟩
  | _ => .error .panic

/-- apl/primitives/grade.go:191-205: compare two rows element by element. -/
def rowLess (less : α → α → Bool) : List α → List α → Bool
  | x :: xs, y :: ys => if less x y then true else if less y x then false else rowLess less xs ys
  | _, _ => false

/-- apl/primitives/grade.go:206-209 `Swap`: both slices. -/
def swapL {β} (l : List β) (i j : Nat) : List β :=
  match l[i]?, l[j]? with
  | some x, some y => (l.set i y).set j x
  | _, _ => l

def SortIdx.swap (s : SortIdx α) (i j : Nat) : SortIdx α := ⟨swapL s.b i j, swapL s.idx i j⟩

/-- States reachable by calls of `Swap` on positions within range. -/
inductive Swaps : SortIdx α → SortIdx α → Prop
  | refl (s) : Swaps s s
  | swap {s t : SortIdx α} (i j : Nat) : Swaps s t → i < t.b.length → j < t.b.length → Swaps s (t.swap i j)

/-- The order a sort leaves behind: no element is less than the one before it.  `lt` is the `Less` of the
interface, `sort.Reverse` (line 47) swaps its arguments. -/
def SortedBy {β} (lt : β → β → Bool) (l : List β) : Prop :=
  ∀ (i : Nat) x y, l[i]? = some x → l[i + 1]? = some y → lt y x = false

/-- Contract of `sort.Sort(si)` / `sort.Sort(sort.Reverse(si))`: the state it may leave behind. -/
def SortResult (less : α → α → Bool) (up : Bool) (s t : SortIdx α) : Prop :=
  Swaps s t ∧ SortedBy (fun x y => if up then rowLess less x y else rowLess less y x) t.b

/-- apl/primitives/grade.go:39-55 `grade`: the possible results. -/
def GradeResult (prep : List (List α) → Option (List (List α))) (less : α → α → Bool) (origin : Int) (up : Bool)
    (a : Arr α) (g : Arr Int) : Prop :=
  ∃ s t, gradeSetup prep origin a = .ok s ∧ SortResult less up s t ∧ g = ⟨[t.idx.length], t.idx⟩

/-- apl/primitives/grade.go:105-133: import of Ints and Bools (`a.Tower.Import`), and the highest class. -/
def gradeImport {V} (t : Tower V) (x : TNum V) : Option (TNum V) :=
  match t.importN x with
  | .num c v => if c < t.len then some (.num c v) else none
  | _ => none

/-- apl/primitives/grade.go:121-131: `for c := num.Class; c < class; c++ { u, ok := num.Uptype(n); b[i][k] = u }`
with an `n` and `num` that the loop never changes: one step up, however large the difference. -/
def gradeUp {V} (t : Tower V) (class_ : Int) (x : TNum V) : Option (TNum V) :=
  match x with
  | .num c v => if (c : Int) < class_ then (t.up c v).map (fun w => .num (c + 1) w) else some x
  | x => some x

/-- apl/primitives/grade.go:82-146: elements of one type are left alone, otherwise all of them are imported
and moved up towards the highest class. -/
def gradePrep {V} (t : Tower V) (b : List (List (TNum V))) : Option (List (List (TNum V))) :=
  match b.flatten with
  | [] => none
  | x :: xs =>
    if xs.all (fun y => sameGoType x y) then some b
    else do
      let b ← b.mapM (fun r => r.mapM (gradeImport t))
      let c := b.flatten.foldl (fun m x => max m (cls x)) (-1)
      b.mapM (fun r => r.mapM (gradeUp t c))

/-- apl/primitives/grade.go:174-183 `grade2`: `L⍋R` is `⍋L⍳R`. -/
def Grade2Result (uk : List α → Kind) (eq : α → α → Bool) (prep : List (List Int) → Option (List (List Int)))
    (less : Int → Int → Bool) (origin : Int) (up : Bool) (L R : Val α) (g : Arr Int) : Prop :=
  ∃ k r, indexof uk eq origin L R = .ok (.arr k r) ∧ GradeResult prep less origin up r g

/-- apl/primitives/iota.go:203-216: for one element, `for k := 0; k < n; k++` with `fless(a, r, al.At(k))`. -/
def intervalLoop (fless : α → α → Res Bool) (origin : Int) (r : α) : List α → (k : Nat) → Res Int
  | [], _ => .ok 0
  | x :: xs, k => do
    if ← fless r x then .ok ((k : Int) - 1 + origin)
    else if xs.isEmpty then .ok ((k : Int) + origin)
    else intervalLoop fless origin r xs (k + 1)

/-- apl/primitives/iota.go:196-219: the result vector, from the first element of each major cell of `R`. -/
def intervalFill (fless : α → α → Res Bool) (origin : Int) (l : List α) (r : Arr α) : Res (Arr Int) := do
  match r.shape with
  | [] => .error .panic
  | n :: s => do
    let rn := if s = [] then 1 else prod s
    let d ← forLoop (fun i => do let x ← sliceAt r.data (i * rn); intervalLoop fless origin x l 0) n 0
    return ⟨[n], d⟩

/-- apl/primitives/iota.go:176-190: the check of the left argument: its grade must be `0 1 2 …` (from the
origin). -/
def increasingCheck (origin : Int) (g : Arr Int) : Bool :=
  (g.data.zipIdx).all (fun p => p.1 == (p.2 : Int) + origin)

/-- apl/primitives/iota.go:171-226 `intervalindex` for a vector `L` and an array `R` (domain of line 38), as a
relation because of the grade. -/
def IntervalResult (prep : List (List α) → Option (List (List α))) (less : α → α → Bool) (fless : α → α → Res Bool)
    (origin : Int) (l : List α) (r : Arr α) (out : Res (Arr Int)) : Prop :=
  ∃ g, GradeResult prep less origin true ⟨[l.length], l⟩ g ∧
    out = if increasingCheck origin g then intervalFill fless origin l r else .error .err

end Iv

import Verif.Model.Format
/-
Text of nested lists for every PP (apl/list.go, apl/fmt.go).  Dictionaries and tables are left out (at PP ¯2: Verif/Model/Json.lean); no format
strings are set for types.
-/
namespace Iv
variable {V O : Type}

/-- A scalar, the empty array, an array or a list (apl/list.go:8-10). -/
inductive LVal (V O : Type)
  | item (x : UItem V O)
  | empty
  | arr (dims : List Nat) (xs : List (UItem V O))
  | list (xs : List (LVal V O))

mutual

/-- `String(f)`: scalars; `EmptyArray` (apl/array.go:256); arrays (apl/fmt.go:57-110); lists (apl/list.go:12-24, 91-103) -/
def lvalText (env : TextEnv V O) (pp : Int) : LVal V O → Res (List Char)
  | .item x => .ok (itemText env pp x)
  | .empty => .ok []
  | .arr dims xs => arrayText env pp dims xs
  | .list xs => do
    let ts ← lvalTexts env pp xs
    return if pp = -2 then '[' :: joinText [','] ts ++ [']'] else '(' :: ts.flatMap (fun t => t ++ [';']) ++ [')']

/-- the texts of the elements (apl/list.go:18-21, 94-99) -/
def lvalTexts (env : TextEnv V O) (pp : Int) : List (LVal V O) → Res (List (List Char))
  | [] => .ok []
  | x :: xs => do return (← lvalText env pp x) :: (← lvalTexts env pp xs)

end

end Iv

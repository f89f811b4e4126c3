import Verif.Model.Format
/-
Text of nested values at PP ¯2: lists and dictionaries (apl/list.go, apl/object.go) together with arrays (apl/fmt.go).
Simplifications: a dictionary is the sequence of its keys with their values (`d.Keys()` and `d.At(key)`; Verif/Model/Dict.lean models
dictionaries); no format strings are set for types.
-/
namespace Iv
variable {V O : Type}

/-- A value of any nesting: a scalar, the empty array, an array, a list (apl/list.go:8-10) or a dictionary (apl/object.go:47-50). -/
inductive TVal (V O : Type)
  | item (x : UItem V O)
  | empty
  | arr (dims : List Nat) (xs : List (TVal V O))
  | list (xs : List (TVal V O))
  | dict (es : List (TVal V O × TVal V O))

mutual

/-- `String(f)` for PP ¯2: `EmptyArray` (apl/array.go:256) has no text; arrays: apl/fmt.go:57-59, 114-139; lists: apl/list.go:12-15, 91-103;
dictionaries: apl/object.go:77-80, 113-130. -/
def treeText (env : TextEnv V O) : TVal V O → Res (List Char)
  | .item x => .ok (itemText env (-2) x)
  | .empty => .ok []
  | .arr dims xs => do jsonText dims (← treeTexts env xs)
  | .list xs => do return '[' :: joinText [','] (← treeTexts env xs) ++ [']']
  | .dict es => do return '{' :: joinText [','] (← entryTexts env es) ++ ['}']

/-- the texts of the elements (apl/fmt.go:114-120, apl/list.go:94-99) -/
def treeTexts (env : TextEnv V O) : List (TVal V O) → Res (List (List Char))
  | [] => .ok []
  | x :: xs => do return (← treeText env x) :: (← treeTexts env xs)

/-- the texts of the entries (apl/object.go:117-127) -/
def entryTexts (env : TextEnv V O) : List (TVal V O × TVal V O) → Res (List (List Char))
  | [] => .ok []
  | (k, v) :: es => do return ((← treeText env k) ++ ':' :: (← treeText env v)) :: (← entryTexts env es)

end

end Iv

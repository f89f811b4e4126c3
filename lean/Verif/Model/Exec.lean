import Verif.Model.Mount
import Verif.Model.VarFs
/-
Programs of the operating system: apl/io/read.go:38-88 `exec`, and the environment as an object: apl/io/env.go:16-71.

Simplifications: texts are lists of characters; starting the process and its output (a channel of lines, C51) are not modelled, the result is the
command that is started.  The environment is the list of its names and values.
-/
namespace Iv
variable {F : Type}

/-- The argument of a program: a string, a `StringArray` (with the storage of the variable it comes from), another array (an element that is no
string is `none`), anything else. -/
inductive ExecArg
  | single (s : List Char)
  | strings (l : List (List Char))
  | mixed (l : List (Option (List Char)))
  | other
deriving DecidableEq, Repr

/-- apl/domain/string.go:43-71 `ToStringArray`: the strings; a `StringArray` is taken as it is, others are copied -/
def execStrings : ExecArg → Option (List (List Char))
  | .single s => some [s]
  | .strings l => some l
  | .mixed l => l.mapM id
  | .other => none

/-- the argument behind the assignment `argv[0] = p` (read.go:73): only a `StringArray` shares its storage -/
def execStore (p : List Char) : ExecArg → ExecArg
  | .strings (_ :: as) => .strings (p :: as)
  | a => a

/-- the text of a clean path (Go's `filepath.Join` for unix) -/
def pathText (p : Bool × List (List Char)) : List Char :=
  if p.1 then '/' :: (List.intersperse ['/'] p.2).flatten
  else if p.2 = [] then ['.'] else (List.intersperse ['/'] p.2).flatten

/-- the command that is started -/
structure Started (V : Type) where
  program : List Char
  args : List (List Char)
  stdin : Option V
deriving DecidableEq, Repr

/-- apl/io/read.go:62-74: the place of a program whose name begins with a slash; `osRoot` is the directory of a file system of the operating
system. -/
def execPath (osRoot : F → Option (List Char)) (tab : List (MPoint F)) (name : List Char) : Res (List Char) :=
  match lookupFs tab name with
  | .error e => .error e
  | .ok (fs, mpt) =>
    match osRoot fs with
    | none => .error .err
    | some root => .ok (pathText (osPath root (trimPrefix name mpt)))

/-- apl/io/read.go:42-88 `exec`: the command that is started, and the argument as it is afterwards.  With two arguments the left one is the
program and the right one its input (lines 43-53). -/
def execCall {V : Type} (osRoot : F → Option (List Char)) (tab : List (MPoint F)) (arg : ExecArg) (input : Option V) : Res (Started V) × ExecArg :=
  match execStrings arg with
  | none => (.error .err, arg)
  | some [] => (.error .err, arg)
  | some (p :: as) =>
    if hasPrefix p ['/'] then
      match execPath osRoot tab p with
      | .error e => (.error e, arg)
      | .ok q => (.ok ⟨q, as, input⟩, execStore q arg)
    else (.ok ⟨p, as, input⟩, arg)

/-! ### The environment as an object -/

/-- a key or a value: a string or anything else -/
inductive EnvVal
  | str (s : String)
  | other
deriving DecidableEq, Repr

/-- apl/io/env.go:36-47 `Keys` (on unix no name begins with "=") -/
def envKeys (env : List (String × String)) : List String := env.map (·.1)

/-- apl/io/env.go:49-59 `At`; a key that is no string gives the empty string -/
def envAt (env : List (String × String)) : EnvVal → Option String
  | .other => some ""
  | .str s => mapGet env s

/-- apl/io/env.go:61-71 `Set` -/
def envSet (env : List (String × String)) : EnvVal → EnvVal → Res (List (String × String))
  | .str k, .str v => setenv env k v
  | _, _ => .error .err

end Iv

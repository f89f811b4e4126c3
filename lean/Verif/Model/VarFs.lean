import Verif.Model.Package
import Verif.Model.Mount
/-
Variables and the environment of the process as files: apl/io/var.go, apl/io/env.go, apl/var.go:126-146 `Vars`.

Simplifications: the padding that `text/tabwriter` adds to the columns of a listing is left out, a listing is the list of its rows.
The texts are Lean strings, not bytes.
-/
namespace Iv
variable {D H : Type}

/-- What is known about values: `apl.String(t)`, the test for it (the only type with the method `ReadFrom`, apl/string.go:34-40), the text of a
value in the current format (`String(a.Format)`) and the description in a listing. -/
structure TextOf (D : Type) where
  str : String → D
  isStr : D → Bool
  text : (pp : Int) → IVal D → String
  info : IVal D → String

/-- insertion into a sorted list of names -/
def insertName (x : String) : List String → List String
  | [] => [x]
  | y :: ys => if y < x then y :: insertName x ys else x :: y :: ys

/-- Go's `sort.Strings` -/
def sortNames : List String → List String
  | [] => []
  | x :: xs => insertName x (sortNames xs)

/-- the keys of a Go map -/
def mapNames {V : Type} (m : List (String × V)) : List String := m.map (·.1)

/-- the names of the variables of an environment -/
def envNames (envs : List (Env D)) (e : Nat) : List String :=
  match envs[e]? with
  | none => []
  | some en => mapNames en.vars

/-- apl/var.go:126-146 `Vars` -/
def varList (i : Machine D H) (pkg : String) : Res (List String) :=
  if pkg = "" then .ok (sortNames (mapNames i.pkgs |>.map (· ++ "/") |>.append (envNames i.st.envs i.st.cur)))
  else match mapGet i.pkgs pkg with
    | none => .error .err
    | some e => .ok (sortNames (envNames i.st.envs e))

/-- apl/var.go:85-88 `Lookup` -/
def Machine.lookup (w : World D H) (i : Machine D H) (name : String) : Option (IVal D) := (lookupEnv (i.sys w) i.st name).1

/-- does a text end with a slash -/
def endsSlash (s : String) : Bool := hasSuffix s.toList ['/']

/-- `strings.TrimSuffix(name, "/")` -/
def trimSlash (s : String) : String := if endsSlash s then String.ofList s.toList.dropLast else s

/-- apl/io/var.go:98-113: one row of a listing -/
def listRow (w : World D H) (tx : TextOf D) (i : Machine D H) (mpt varname : String) : String × String :=
  (mpt ++ varname,
    if endsSlash varname then "" else match i.lookup w varname with
      | none => "?"
      | some v => tx.info v)

/-- apl/io/var.go:85-117: `list` -/
def listVars (w : World D H) (tx : TextOf D) (i : Machine D H) (name mpt : String) : Res (List (String × String)) :=
  match varList i (trimSlash name) with
  | .error e => .error e
  | .ok l => .ok (l.map (fun n => listRow w tx i mpt ((if trimSlash name = "" then "" else trimSlash name ++ "→") ++ n)))

/-- what `Open` returns: the rows of a listing, or the text of a variable -/
inductive Content
  | rows (l : List (String × String))
  | text (s : String)
deriving DecidableEq

/-- the text of a variable (apl/io/var.go:123-131) -/
def openText (tx : TextOf D) (pp : Int) : Option (IVal D) → Res Content
  | some v => .ok (.text (tx.text pp v))
  | none => .error .err

/-- apl/io/var.go:84-132 `Open` -/
def openVar (w : World D H) (tx : TextOf D) (i : Machine D H) (name mpt : String) : Res Content :=
  if name = "" ∨ endsSlash name = true then (listVars w tx i name mpt).map .rows
  else openText tx i.st.pp (i.lookup w name)

/-- apl/io/var.go:64-69 `varWriter`, with the text in its buffer -/
structure VarWriter where
  name : String
  buf : String
deriving DecidableEq

/-- is the value a `VarReader` -/
def canWrite (tx : TextOf D) : Option (IVal D) → Bool
  | some (.data d) => tx.isStr d
  | _ => false

/-- apl/io/var.go:35-62 `Write` -/
def createVar (w : World D H) (tx : TextOf D) (i : Machine D H) (name : String) : Res VarWriter :=
  if endsSlash name then .error .err
  else if name.toList.contains '→' then .error .err
  else if canWrite tx (i.lookup w name) then .ok ⟨name, ""⟩
  else .error .err

/-- the outcome of `Assign` as one of `Close`; the error of `Assign` is always an error, never "still running" -/
def closeResult (pkgs : List (String × Nat)) : Option (Except Fail Unit × St D H) → Except Fail Unit × Machine D H → Except Fail Unit × Machine D H
  | some (r, s), _ => (r, ⟨s, pkgs⟩)
  | none, d => d

/-- apl/io/var.go:71-81 `Close`: the value is the whole text of the buffer; reading empties the buffer -/
def closeVar (w : World D H) (tx : TextOf D) (i : Machine D H) (vw : VarWriter) : Except Fail Unit × Machine D H :=
  closeResult i.pkgs (assignEnv (i.sys w) vw.name (.data (tx.str vw.buf)) none i.st) (.error .err, i)

/-- What a program does with the file system: open a variable for writing (the new handle is the number of handles so far), write to a handle,
close it, or let the interpreter evaluate a line. -/
inductive VarOp
  | create (name : String)
  | write (h : Nat) (s : String)
  | close (h : Nat)
  | line (n : Nat) (text : List Char)

/-- the interpreter and the writers that have been created -/
structure VarSystem (D H : Type) where
  m : Machine D H
  writers : List VarWriter

/-- one operation: whether it succeeded, and the state after it -/
def varStep (w : World D H) (tx : TextOf D) (y : VarSystem D H) : VarOp → Bool × VarSystem D H
  | .create name => match createVar w tx y.m name with
    | .error _ => (false, y)
    | .ok vw => (true, ⟨y.m, y.writers ++ [vw]⟩)
  | .write h s => match y.writers[h]? with
    | none => (false, y)
    | some vw => (true, ⟨y.m, y.writers.set h ⟨vw.name, vw.buf ++ s⟩⟩)
  | .close h => match y.writers[h]? with
    | none => (false, y)
    | some vw => ((closeVar w tx y.m vw).1.toOption.isSome, ⟨(closeVar w tx y.m vw).2, y.writers.set h ⟨vw.name, ""⟩⟩)
  | .line n text => match evalLine w n text y.m with
    | none => (false, y)
    | some (r, j) => (r.toOption.isSome, ⟨j, y.writers⟩)

/-- a history -/
def varRun (w : World D H) (tx : TextOf D) (y : VarSystem D H) (ops : List VarOp) : VarSystem D H :=
  ops.foldl (fun y op => (varStep w tx y op).2) y

/-! ### The environment of the process -/

/-- Go's `os.Setenv` (on Unix): the name must not be empty and must not contain "=" or a zero; the value must not contain a zero. -/
def setenv (env : List (String × String)) (name value : String) : Res (List (String × String)) :=
  if name = "" then .error .err
  else if name.toList.contains '=' ∨ name.toList.contains (Char.ofNat 0) then .error .err
  else if value.toList.contains (Char.ofNat 0) then .error .err
  else .ok (mapSet env name value)

/-- apl/io/env.go:84-105 `Open` -/
def openEnv (env : List (String × String)) (name mpt : String) : Res Content :=
  if name = "" then .ok (.rows (env.map (fun kv => (mpt ++ kv.1, kv.2))))
  else match mapGet env name with
    | some v => .ok (.text v)
    | none => .error .err

/-- apl/io/env.go:106-118 `Write` and `Close`: the texts that are written between them -/
def writeEnv (env : List (String × String)) (name : String) (texts : List String) : Res (List (String × String)) :=
  setenv env name (String.join texts)

end Iv

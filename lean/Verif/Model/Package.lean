import Verif.Model.Interp
import Verif.Model.Scan
/-
Packages, files and sessions: apl/apl.go:57-70 `LoadPkg`, apl/eval.go:87-122 `EvalFile`, apl/register.go:40-43 `RegisterPackage`,
apl/var.go:100-106 and 151-163 (package variables), apl/io/read.go:91-123 `load`.

Simplifications: a load (`io→l`) is a program of its own, `/l` on a line; it is not part of a larger expression.  The lines of a file are those
that `bufio.Scanner` delivers.  The variables of packages are looked up in the state at the beginning of a program; `C77_constant` shows that a
program does not change them.
-/
namespace Iv
variable {D H : Type}

/-- The interpreter with its packages: `a.pkg` (apl/apl.go:46) maps the name to the environment. -/
structure Machine (D H : Type) where
  st : St D H
  pkgs : List (String × Nat)

/-- an evaluation of the machine: `none` is "still running" -/
abbrev MM (D H : Type) := Machine D H → Option (Except Fail Unit × Machine D H)

/-- What an interpreter is connected to: the primitives, the scanner, the parser; `lower` tests if a text is lower case; `load` recognises the
statement that loads a file (the name of the package, if any, and of the file); `files` is the file system. -/
structure World (D H : Type) where
  sys : Sys D H
  ctx : ScanCtx
  pctx : PCtx D
  lower : List Char → Bool
  load : List (Option (Expr D)) → Option (Option String × String)
  files : String → Option (List (List Char))

/-- the part of a name in front of the first `→` (apl/var.go:101) -/
def beforeArrow : List Char → List Char
  | [] => []
  | c :: cs => if c = '→' then [] else c :: beforeArrow cs

/-- apl/var.go:100-106, 151-163: the value of a package variable -/
def packageVar (w : World D H) (pkgs : List (String × Nat)) (envs : List (Env D)) (name : String) : Option (IVal D) :=
  match afterArrow name.toList with
  | none => none
  | some var =>
    if w.lower (beforeArrow name.toList) then
      match mapGet pkgs (String.ofList (beforeArrow name.toList)) with
      | none => none
      | some e => envGet envs e (String.ofList var)
    else none

/-- the primitives with the packages of a machine -/
def Machine.sys (w : World D H) (i : Machine D H) : Sys D H := { w.sys with pkgVar := packageVar w i.pkgs i.st.envs }

/-- apl/register.go:40-43 `RegisterPackage` -/
def registerPackage (name : String) (vars : Vars D) (i : Machine D H) : Machine D H :=
  ⟨{ i.st with envs := i.st.envs ++ [⟨none, vars⟩] }, mapSet i.pkgs name i.st.envs.length⟩

/-- apl/eval.go:17-23: `Eval` turns a panic into an error -/
def recovered {α : Type} : Except Fail α → Except Fail α
  | .error _ => .error .err
  | .ok a => .ok a

/-- apl/eval.go:14-58 `Eval` -/
def evalMachine (w : World D H) (n : Nat) (p : List (Option (Expr D))) : MM D H := fun i =>
  match evalWrite (i.sys w) n p i.st with
  | none => none
  | some (r, s) => some (recovered r, ⟨s, i.pkgs⟩)

/-- apl/apl.go:55-70 `LoadPkg`: `m` runs in a new environment without parent; the environment becomes the package if it succeeds; the
deferred function restores the environment. -/
def loadPkg (name : String) (m : MM D H) : MM D H := fun i =>
  match m ⟨{ i.st with envs := i.st.envs ++ [⟨none, []⟩], cur := i.st.envs.length }, i.pkgs⟩ with
  | none => none
  | some (.error e, j) => some (.error e, ⟨{ j.st with cur := i.st.cur }, j.pkgs⟩)
  | some (.ok _, j) => some (.ok (), ⟨{ j.st with cur := i.st.cur }, mapSet j.pkgs name j.st.cur⟩)

/-- the value of a load, the empty array, is written by `Eval` -/
def writeEmpty (w : World D H) (i : Machine D H) : Machine D H := { i with st := { i.st with out := i.st.out ++ [.data w.sys.empty] } }

/-- the value is written if the load succeeds -/
def thenWrite (w : World D H) (m : MM D H) : MM D H := fun i =>
  match m i with
  | none => none
  | some (.error e, j) => some (.error e, j)
  | some (.ok _, j) => some (.ok (), writeEmpty w j)

/-- `Eval` of a program, which may be the statement that loads a file (apl/io/read.go:95-123); `rec` evaluates the lines of a file -/
def evalOrLoad (w : World D H) (n : Nat) (rec : List (List Char) → MM D H) (p : List (Option (Expr D))) : MM D H :=
  match w.load p with
  | none => evalMachine w n p
  | some (name, file) =>
    match w.files file with
    | none => fun i => some (.error .err, i)
    | some lines =>
      match name with
      | none => thenWrite w (rec lines)
      | some pkg => thenWrite w (loadPkg pkg (rec lines))

/-- run the second evaluation if the first succeeds -/
def andThen (m k : MM D H) : MM D H := fun i =>
  match m i with
  | none => none
  | some (.error e, j) => some (.error e, j)
  | some (.ok _, j) => k j

/-- apl/eval.go:87-122 `EvalFile`: the loop over the lines; `ok` is the result of the last `Add` -/
def evalFile (w : World D H) : (n : Nat) → List (List Char) → LineBuffer → (ok : Bool) → MM D H
  | 0, _, _, _ => fun _ => none
  | _ + 1, [], b, ok => fun i => if ok = false ∧ b.tokens.length > 0 then some (.error .err, i) else some (.ok (), i)
  | n + 1, l :: ls, b, _ =>
    match b.add w.ctx l with
    | (.error e, _) => fun i => some (.error e, i)
    | (.ok false, b') => evalFile w n ls b' false
    | (.ok true, b') =>
      match b'.parse w.pctx with
      | (.error e, _) => fun i => some (.error e, i)
      | (.ok p, b'') => andThen (evalOrLoad w n (fun lines => evalFile w n lines .reset true) p) (evalFile w n ls b'' true)

/-- apl/apl.go:72-104 `ParseAndEval`: one line of input -/
def evalLine (w : World D H) (n : Nat) (line : List Char) : MM D H :=
  match scanLine w.ctx line with
  | .error e => fun i => some (.error e, i)
  | .ok ts =>
    match parseProgram w.pctx ts with
    | .error e => fun i => some (.error e, i)
    | .ok p => evalOrLoad w n (fun lines => evalFile w n lines .reset true) p

end Iv

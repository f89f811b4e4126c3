import Verif.Model.Cmd
/-
The stream processor `iv`: cmd/iv.go:9-15, cmd/iv/main.go:24-30 and its test runner cmd/testing.go:72-105.  Not modelled: the package `io` with
the function that reads standard input (cmd/iv/main.go:32-62), which is part of the environment of the machine.
-/
namespace Iv
variable {D H : Type}

/-- cmd/iv.go:11: the line that is evaluated first -/
def ivPrelude : List Char := "r←{<⍤⍵ io→r 0}⋄s←{⍵⍴<⍤0 io→r 0}".toList

/-- `a.ParseAndEval(p)` as the last call of a command: a panic of the parser is not recovered (see `parsePanics`) -/
def ivEval (w : World D H) (n : Nat) (line : List Char) (i : Machine D H) : Option (CmdEnd × Machine D H) :=
  if parsePanics w line then some (.crash, i)
  else
    match evalLine w n line i with
    | none => none
    | some (.ok _, j) => some (.ok, j)
    | some (.error _, j) => some (.failed, j)

/-- cmd/iv.go:9-15 `Iv` -/
def ivRun (w : World D H) (n : Nat) (p : List Char) (i : Machine D H) : Option (CmdEnd × Machine D H) :=
  match ivEval w n ivPrelude i with
  | some (.ok, j) => ivEval w n p j
  | r => r

/-- `strings.Join(args, " ")` -/
def joinArgs : List (List Char) → List Char
  | [] => []
  | [a] => a
  | a :: b :: as => a ++ ' ' :: joinArgs (b :: as)

/-- cmd/iv/main.go:24-30 `main`: `args` are the arguments without the name of the command -/
def ivMain (w : World D H) (n : Nat) (args : List (List Char)) (i : Machine D H) : Option (CmdEnd × Machine D H) :=
  match args with
  | [] => some (.failed, i)
  | args => ivRun w n (joinArgs args) i

/-- cmd/testing.go:93-105 `readline`: the line and the rest of the input; `none`: the input ended before a newline -/
def readFirstLine : List Char → Option (List Char × List Char)
  | [] => none
  | c :: cs =>
    if c = '\n' then some ([], cs)
    else
      match readFirstLine cs with
      | none => none
      | some (l, r) => some (c :: l, r)

/-- cmd/testing.go:72-92 `testIvFile`: `run p input` is the output of `iv` for the program `p` and whether it ended without an error; `out` is the
file with the expected output.  `prog[1:]` panics for an empty line, which counts as a failure here.  Simplification: the first
character is a single byte. -/
def testIvFile (run : List Char → List Char → List Nat × Bool) (text : List Char) (out : Option (List Nat)) : Bool :=
  match readFirstLine text with
  | none => false
  | some ([], _) => false
  | some (_ :: p, rest) =>
    match run p rest with
    | (_, false) => false
    | (o, true) => (compareOut o out).isNone

end Iv

import Verif.Model.Package
/-
The command `apl`: apl/eval.go:87-122 and cmd/apl.go:14-46 with the lines of `bufio.Scanner`; the test runner cmd/testing.go.

Simplifications: input is a list of characters, in valid UTF-8.  The values that are printed are in the output of the machine (`St.out`); the
prompts and messages are listed apart from them.  The text of an error is not modelled.
-/
namespace Iv
variable {D H : Type}

/-! ### Lines -/

/-- the pieces between newlines; there is always a last one, which may be empty -/
def splitNewline : List Char → List (List Char)
  | [] => [[]]
  | c :: cs =>
    match splitNewline cs with
    | [] => [[c]]
    | l :: ls => if c = '\n' then [] :: l :: ls else (c :: l) :: ls

/-- `bufio.dropCR`: a carriage return at the end of a line is dropped -/
def dropCR (l : List Char) : List Char := if l.getLast? = some '\r' then l.dropLast else l

/-- the number of bytes of a text -/
def utf8Bytes (l : List Char) : Nat := (l.map Char.utf8Size).sum

/-- The lines of a text as `bufio.ScanLines` cuts them: without the newline; the end of the text behind the last newline is no line. -/
def rawLines (text : List Char) : List (List Char) :=
  let ls := splitNewline text
  if ls.getLast? = some [] then ls.dropLast else ls

/-- `bufio.Scanner` with its default buffer (`MaxScanTokenSize` = 65536): a line needs room in the buffer together with its newline (or, for the
last line, with the free byte that is needed to see the end of the input).  `Scan` returns false for the first line that is too long. -/
def scannerLines (text : List Char) : List (List Char) := ((rawLines text).takeWhile (fun l => utf8Bytes l < 65536)).map dropCR

/-! ### The command -/

/-- what is written to the terminal beside the values -/
inductive Msg
  | prompt
  | err (e : Fail)
deriving DecidableEq, Repr

/-- how a command ends: normally, with an error, by an unrecovered panic -/
inductive CmdEnd
  | ok
  | failed
  | crash
deriving DecidableEq, Repr

/-- Does the line make the parser panic?  `ParseAndEval` (apl/apl.go:88-94) parses before `Eval`, which is the only function that recovers
(apl/eval.go:17-21). -/
def parsePanics (w : World D H) (line : List Char) : Bool :=
  match scanLine w.ctx line with
  | .error e => e == .panic
  | .ok ts =>
    match parseProgram w.pctx ts with
    | .error e => e == .panic
    | .ok _ => false

/-- the message for a line (cmd/apl.go:40-42) -/
def lineMsg : Except Fail Unit → List Msg
  | .error e => [.err e]
  | .ok _ => []

/-- cmd/apl.go:38-44: the loop over the lines of the input -/
def replLoop (w : World D H) (n : Nat) : List (List Char) → Machine D H → Option (CmdEnd × Machine D H × List Msg)
  | [], i => some (.ok, i, [])
  | l :: ls, i =>
    if parsePanics w l then some (.crash, i, [])
    else
      match evalLine w n l i with
      | none => none
      | some (r, j) =>
        match replLoop w n ls j with
        | none => none
        | some (c, k, ms) => some (c, k, lineMsg r ++ .prompt :: ms)

/-- cmd/apl.go:30: `EvalFile` decides how the command ends.  Simplification: `failed` also stands for a panic of the parser, which `EvalFile` does
not recover. -/
def fileEnd : Option (Except Fail Unit × Machine D H) → Option (CmdEnd × Machine D H × List Msg)
  | none => none
  | some (.ok _, j) => some (.ok, j, [])
  | some (.error _, j) => some (.failed, j, [])

/-- cmd/apl.go:14-46 `Apl`: the loop over the arguments returns in its first round (line 30). -/
def aplCmd (w : World D H) (n : Nat) (stdin : List Char) (osFiles : String → Option (List Char)) (args : List String) (i : Machine D H) :
    Option (CmdEnd × Machine D H × List Msg) :=
  match args with
  | [] =>
    match replLoop w n (scannerLines stdin) i with
    | none => none
    | some (c, k, ms) => some (c, k, .prompt :: ms)
  | name :: _ =>
    if name = "-" then fileEnd (evalFile w n (scannerLines stdin) .reset true i)
    else
      match osFiles name with
      | none => some (.failed, i, [])
      | some text => fileEnd (evalFile w n (scannerLines text) .reset true i)

/-! ### The test runner -/

/-- the report of `compareOut`: there is no file, or the number of a line and of a byte -/
inductive OutReport
  | missing
  | differs (line byte : Nat)
deriving DecidableEq, Repr

/-- cmd/testing.go:135-144: the loop over the common part; the line is counted before the comparison; `at_` is the position to report if
there is no difference. -/
def compareLoop : (want got : List Nat) → (i line : Nat) → (at_ : Option Nat) → Nat × Option Nat
  | w :: ws, g :: gs, i, line, at_ =>
    if g ≠ w then ((if w = 10 then line + 1 else line), some i)
    else compareLoop ws gs (i + 1) (if w = 10 then line + 1 else line) at_
  | _, _, _, line, at_ => (line, at_)

/-- cmd/testing.go:119-150 `compareOut`: `want` are the bytes of the file with the expected output; `none` is success -/
def compareOut (got : List Nat) (want : Option (List Nat)) : Option OutReport :=
  match want with
  | none => some .missing
  | some want =>
    let at_ := if want.length ≠ got.length then some (min want.length got.length) else none
    match compareLoop want got 0 1 at_ with
    | (_, none) => none
    | (line, some i) => some (.differs line (i + 1))

/-- cmd/testing.go:107-117 `compareError`: the text of the error with a newline is the content of the file -/
def compareError (got : List Nat) (want : Option (List Nat)) : Bool :=
  match want with
  | none => false
  | some w => got ++ [10] == w

/-- cmd/testing.go:63-71 `testAplFile`: `run` is the output and the error of the program, `out` and `err` the files -/
def testAplFile (run : List Nat × Option (List Nat)) (out err : Option (List Nat)) : Bool :=
  match run.2 with
  | some e => compareError e err
  | none => (compareOut run.1 out).isNone

/-- cmd/testing.go:16-37 `AplTest`: the files of the directory, in the order in which they are read; `test` is the result for one file -/
def aplTest (isApl test : String → Bool) : List String → Bool
  | [] => true
  | f :: fs => if isApl f = false then aplTest isApl test fs else if test f = false then false else aplTest isApl test fs

end Iv

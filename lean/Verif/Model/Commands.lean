import Verif.Model.Scan
/-
The commands: apl/a/commands.go, apl/a/register.go:34-39, apl/io/mount.go:118-146, apl/io/read.go:125-132, apl/io/register.go:28-32.
-/
namespace Iv

/-- apl/a/commands.go:27-35 `rw0` -/
def rw0 (name : String) (t : List Token) : List Token := ⟨.identifier, "a→" ++ name⟩ :: ⟨.number, "0"⟩ :: t

/-- apl/a/commands.go:52-54 `printCmd` -/
def printCmd (t : List Token) : List Token := ⟨.identifier, "a→p"⟩ :: t

/-- apl/a/commands.go:71-81 `timeCmd` -/
def timeCmd (t : List Token) : List Token :=
  [⟨.identifier, "T__"⟩, ⟨.symbol, "←"⟩, ⟨.identifier, "a→t"⟩, ⟨.number, "0"⟩, ⟨.diamond, "⋄"⟩] ++ t ++
    [⟨.diamond, "⋄"⟩, ⟨.identifier, "a→t"⟩, ⟨.identifier, "T__"⟩]

/-- apl/io/mount.go:130-134: the symbols `/` and `.` become strings -/
def pathToken (t : Token) : Token := if t.t = .symbol ∧ (t.s = "/" ∨ t.s = ".") then ⟨.string, t.s⟩ else t

/-- apl/io/mount.go:118-138 `mCmd` -/
def mountCmd : List Token → List Token
  | [] => [⟨.identifier, "io→mount"⟩, ⟨.number, "0"⟩]
  | [t] => [t]
  | t0 :: t1 :: ts => pathToken t1 :: ⟨.identifier, "io→mount"⟩ :: pathToken t0 :: ts

/-- apl/io/mount.go:140-146 `cdCmd` -/
def cdCmd : List Token → List Token
  | [] => [⟨.identifier, "io→cd"⟩, ⟨.number, "0"⟩]
  | t :: ts => ⟨.identifier, "io→cd"⟩ :: t :: ts

/-- apl/io/read.go:125-132 `lCmd` -/
def loadCmd (t : List Token) : List Token :=
  match t with
  | [t0, t1] => if t0.t = .string ∧ t1.t = .string then [t1, ⟨.identifier, "io→l"⟩, t0] else ⟨.identifier, "io→l"⟩ :: t
  | _ => ⟨.identifier, "io→l"⟩ :: t

/-- the commands of the packages a and io (apl/a/register.go:34-39, apl/io/register.go:28-32) -/
def stdCommands : String → Option (List Token → List Token) := fun s =>
  if s = "h" then some (rw0 "h")
  else if s = "p" then some printCmd
  else if s = "q" then some (rw0 "q")
  else if s = "t" then some timeCmd
  else if s = "cd" then some cdCmd
  else if s = "l" then some loadCmd
  else if s = "m" then some mountCmd
  else none

end Iv

import Verif.Model.Basic
/-
Reading text from a channel: `ChannelReader` and `RuneScanner` (apl/channel.go:171-265).
Simplifications: the values the channel sends are given by the list of their texts (the schedule of the sender does not matter for a reader that waits, C51), and
the channel is not cancelled while it is read (the `select` cases on `c[1]` and `O[1]`).  Strings are lists of runes (no invalid UTF-8).
-/
namespace Iv

/-- what `io.Reader.Read` gives: some bytes and no error, or `io.EOF` -/
inductive ReadRes (B : Type)
  | bytes (bs : List B)
  | eof
deriving DecidableEq

/-- apl/channel.go:179-187 `ChannelReader`; `texts` are the texts of the values the channel will still send -/
structure ChanReader (B : Type) where
  buf : List B
  texts : List (List B)
  first : Bool
  closed : Bool

/-- `bytes.Buffer.Read(p)` with `n = len(p)` -/
def bufRead {B : Type} (buf : List B) (n : Nat) : ReadRes B × List B :=
  match buf with
  | [] => (if n = 0 then .bytes [] else .eof, [])
  | b :: bs => (.bytes ((b :: bs).take n), (b :: bs).drop n)

/-- apl/channel.go:172-177 `NewChannelReader`: the field `first` is left false -/
def ChanReader.new {B : Type} (texts : List (List B)) : ChanReader B := ⟨[], texts, false, false⟩

/-- apl/channel.go:193-212: receive a value, or see that the channel is closed -/
def ChanReader.fill {B : Type} (nl : B) (r : ChanReader B) : ChanReader B :=
  match r.texts with
  | [] => { r with closed := true }
  | t :: ts => { r with buf := r.buf ++ (if r.first then [] else [nl]) ++ t, texts := ts, first := false }

/-- apl/channel.go:189-214 `ChannelReader.Read` -/
def ChanReader.read {B : Type} (nl : B) (r : ChanReader B) (n : Nat) : ReadRes B × ChanReader B :=
  let r := if r.closed then r else if r.buf.length < 1024 then r.fill nl else r
  let (res, buf) := bufRead r.buf n
  (res, { r with buf := buf })

/-- a program that reads with buffers of the given sizes until the end of the input: the bytes it has got, and whether it has seen the end -/
def ChanReader.readAll {B : Type} (nl : B) (r : ChanReader B) : List Nat → List B × Bool
  | [] => ([], false)
  | n :: ns =>
    match r.read nl n with
    | (.eof, _) => ([], true)
    | (.bytes bs, r') => let (out, e) := r'.readAll nl ns; (bs ++ out, e)

/-- what `ReadRune` gives -/
inductive RuneRes
  | rune (c : Char)
  | eof
  | notString
deriving DecidableEq

/-- apl/channel.go:216-224 `RuneScanner`: the runes of the buffer that are not read, the rune read last (if it can be unread), the flag `i`, and
the values the channel will still send (`none`: not a string) -/
structure RuneScan where
  buf : List Char
  last : Option Char
  i : Bool
  vals : List (Option (List Char))
deriving DecidableEq

/-- `bytes.Buffer.ReadRune` -/
def RuneScan.next (s : RuneScan) : RuneRes × RuneScan :=
  match s.buf with
  | [] => (.eof, { s with last := none })
  | c :: cs => (.rune c, { s with buf := cs, last := some c })

/-- apl/channel.go:226-252 `RuneScanner.ReadRune` -/
def RuneScan.readRune (s : RuneScan) : RuneRes × RuneScan :=
  if s.buf.length = 0 then
    match s.vals with
    | [] => (.eof, s)
    | none :: vs => (.notString, { s with vals := vs })
    | some t :: vs => RuneScan.next { buf := s.buf ++ (if s.i then ['\n'] else []) ++ t, last := none, i := true, vals := vs }
  else s.next

/-- apl/channel.go:253-255 `RuneScanner.UnreadRune`: an error unless the last operation was a `ReadRune` that gave a rune -/
def RuneScan.unreadRune (s : RuneScan) : Option RuneScan :=
  match s.last with
  | none => none
  | some c => some { s with buf := c :: s.buf, last := none }

/-- the results of `n` calls of `ReadRune` -/
def RuneScan.reads (s : RuneScan) : Nat → List RuneRes
  | 0 => []
  | n + 1 => s.readRune.1 :: s.readRune.2.reads n

end Iv

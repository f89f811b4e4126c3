import Verif.Model.Basic
/-
Channels: apl/channel.go, `channelSource` (apl/primitives/channel.go), `rhoChannel` (apl/primitives/rho.go), the readers of
apl/operators/reduce.go and apl/primitives/take.go.

A channel `c` is a pair of unbuffered Go channels: values go from the goroutine that made it to the reader over `c[0]`; the reader closes `c[1]`
to ask the goroutine to stop.  A goroutine and all goroutines it reads from form a tree (`Proc`).  Goroutines run concurrently: `Step` is the
relation of all possible next steps of a tree, in any interleaving.  A step with the label `out v` is one that can only be done together with a
reader that receives `v` from `c[0]` (Go: send and receive on an unbuffered channel happen together); a step with the label `tau` needs no one
outside of the tree.  A `select` with several ready cases takes any of them.

`cancelled` records that `c[1]` has been closed, the state `done` that the goroutine has returned and closed `c[0]` (`defer close(c[0])`).
Closing a closed channel panics in a goroutine, which ends the whole program: `crash`.

Not modelled: values sent to `c[1]` by the user (`C↓R`; all goroutines of this file ignore them); functions that are called by
several goroutines and act on the same variables (the functions of the stages are pure); a channel that is used twice as an argument; time.
-/
namespace Iv
variable {V : Type}

/-- The state of the goroutine of `Apply` (apl/channel.go:87-124) and of `Scope` (49-72).
`idle`: in the outer select.  `got v`: at `lv = <-l[0]` (line 110).  `send v`: at `c[0] <- v` (line 119, or the inner select of `Scope`).
`sendErr v`: at `c[0] <- Error{err}` (114).  `failed`: at `close(r[1])` (115).  `stopLeft`: at `close(l[1])` (98 and 104).
`done`: returned.  `crash`: panicked. -/
inductive StageSt (V : Type)
  | idle
  | got (v : V)
  | send (v : V)
  | sendErr (v : V)
  | failed
  | stopLeft
  | done
  | crash
deriving DecidableEq, Repr

/-- The state of the goroutine of `rhoChannel` (apl/primitives/rho.go:102-140).
`idle b`: in the outer select, with the elements `b` collected so far.  `push b xs`: in the loop over the elements `xs` of a received array.
`full b xs`: in the select of `push`. -/
inductive ChunkSt (V : Type)
  | idle (b : List V)
  | push (b xs : List V)
  | full (b xs : List V)
  | done
  | crash
deriving DecidableEq, Repr

/-- A goroutine with the goroutines it reads from. -/
inductive Proc (V : Type)
  /-- apl/channel.go:129-148 `SendAll` (called by `channelEach`, apl/operators/each.go:102-123, with the elements of an array or the
  single value); also apl/primitives/channel.go:44-62 for a positive number of repetitions: `rest` is still to be sent -/
  | src (rest : List V) (cancelled done : Bool)
  /-- apl/primitives/channel.go:44-62 with a negative number of repetitions: send `v` until `c[1]` is closed -/
  | rep (v : V) (cancelled done : Bool)
  /-- apl/channel.go:151-169 `LineReader`; `rest` are the lines of the input -/
  | lines (rest : List V) (cancelled done : Bool)
  /-- apl/channel.go:83-124 `Apply` with a left value that is nil or not a channel (part of `f` here).  An error of `f` is given by the value
  `Error{err}` that is sent (apl/primitives/channel.go:95-129 `channelDelay`, `channel1`, `channel2` and apl/operators/each.go:83-89
  `eachChannel` call it, too).  `skip` is true for an `EmptyArray` if values are filtered, false otherwise. -/
  | app (f : V → Except V V) (skip : V → Bool) (st : StageSt V) (cancelled : Bool) (up : Proc V)
  /-- `Apply` with a channel as left value; the left argument of `f` is nil if that channel is closed -/
  | app2 (f : Option V → V → Except V V) (skip : V → Bool) (st : StageSt V) (cancelled : Bool) (left up : Proc V)
  /-- apl/channel.go:44-74 `Scope`; `log` are the values printed.  The loop of `channelCopy` (apl/primitives/channel.go:66-93), `l` being a channel
  that no one else sends to or closes, is the same without the printing. -/
  | scope (log : List V) (st : StageSt V) (cancelled : Bool) (up : Proc V)
  /-- apl/primitives/rho.go:86-142 `rhoChannel`: `elems` are the elements of a received value (an array; a scalar has itself as the only
  element), `mk` makes the array of `size` elements. -/
  | chunk (size : Nat) (elems : V → List V) (mk : List V → V) (st : ChunkSt V) (cancelled : Bool) (up : Proc V)

/-- `c[0]` is closed -/
def Proc.closed : Proc V → Prop
  | .src _ _ d => d = true
  | .rep _ _ d => d = true
  | .lines _ _ d => d = true
  | .app _ _ st _ _ => st = .done
  | .app2 _ _ st _ _ _ => st = .done
  | .scope _ st _ _ => st = .done
  | .chunk _ _ _ st _ _ => st = .done

/-- `c[1]` is closed -/
def Proc.cancelled : Proc V → Bool
  | .src _ c _ => c
  | .rep _ c _ => c
  | .lines _ c _ => c
  | .app _ _ _ c _ => c
  | .app2 _ _ _ c _ _ => c
  | .scope _ _ c _ => c
  | .chunk _ _ _ _ c _ => c

/-- `close(c[1])` (of a channel that is not closed) -/
def Proc.cancel : Proc V → Proc V
  | .src r _ d => .src r true d
  | .rep v _ d => .rep v true d
  | .lines r _ d => .lines r true d
  | .app f s st _ up => .app f s st true up
  | .app2 f s st _ l up => .app2 f s st true l up
  | .scope g st _ up => .scope g st true up
  | .chunk n e m st _ up => .chunk n e m st true up

/-- `close(c[1])`: the state of the caller afterwards; closing twice panics -/
def closing {σ : Type} (next crash : σ) (p : Proc V) : σ := if p.cancelled then crash else next

/-- `close(c[1])`: the channel afterwards -/
def closed1 (p : Proc V) : Proc V := if p.cancelled then p else p.cancel

/-- apl/channel.go:112-121: call the function and send the result -/
def afterCall (skip : V → Bool) : Except V V → StageSt V
  | .error e => .sendErr e
  | .ok w => if skip w then .idle else .send w

/-- apl/primitives/rho.go:106-109: `res.Values[p] = v; p++; if p == size` -/
def pushElem (size : Nat) (b : List V) (x : V) (xs : List V) : ChunkSt V :=
  if size ≤ b.length then .crash
  else if b.length + 1 = size then .full (b ++ [x]) xs
  else .push (b ++ [x]) xs

/-- What a step needs from outside: nothing, or a reader that receives a value. -/
inductive Lab (V : Type)
  | tau
  | out (v : V)

/-- The steps of a tree of goroutines. -/
inductive Step : Proc V → Lab V → Proc V → Prop
  -- SendAll
  | srcSend (v vs c) : Step (.src (v :: vs) c false) (.out v) (.src vs c false)
  | srcStop (v vs) : Step (.src (v :: vs) true false) .tau (.src (v :: vs) true true)
  | srcEnd (c) : Step (.src [] c false) .tau (.src [] c true)
  -- channelSource
  | repSend (v c) : Step (.rep v c false) (.out v) (.rep v c false)
  | repStop (v) : Step (.rep v true false) .tau (.rep v true true)
  -- LineReader: `break` only leaves the select, the line is lost and the loop goes on
  | lineSend (v vs c) : Step (.lines (v :: vs) c false) (.out v) (.lines vs c false)
  | lineDrop (v vs) : Step (.lines (v :: vs) true false) .tau (.lines vs true false)
  | lineEnd (c) : Step (.lines [] c false) .tau (.lines [] c true)
  -- Apply
  | appUp (f s st c up up') : Step up .tau up' → Step (.app f s st c up) .tau (.app f s st c up')
  | appRecv (f s c v up up') : Step up (.out v) up' → Step (.app f s .idle c up) .tau (.app f s (afterCall s (f v)) c up')
  | appEof (f s c up) : up.closed → Step (.app f s .idle c up) .tau (.app f s .done c up)
  | appStop (f s up) : Step (.app f s .idle true up) .tau (.app f s (closing .done .crash up) true (closed1 up))
  | appSend (f s c v up) : Step (.app f s (.send v) c up) (.out v) (.app f s .idle c up)
  | appErr (f s c v up) : Step (.app f s (.sendErr v) c up) (.out v) (.app f s .failed c up)
  | appFail (f s c up) : Step (.app f s .failed c up) .tau (.app f s (closing .done .crash up) c (closed1 up))
  -- Apply with a left channel
  | app2Left (f s st c l l' up) : Step l .tau l' → Step (.app2 f s st c l up) .tau (.app2 f s st c l' up)
  | app2Up (f s st c l up up') : Step up .tau up' → Step (.app2 f s st c l up) .tau (.app2 f s st c l up')
  | app2Recv (f s c v l up up') : Step up (.out v) up' → Step (.app2 f s .idle c l up) .tau (.app2 f s (.got v) c l up')
  | app2Call (f s c v w l l' up) : Step l (.out w) l' →
      Step (.app2 f s (.got v) c l up) .tau (.app2 f s (afterCall s (f (some w) v)) c l' up)
  | app2Nil (f s c v l up) : l.closed → Step (.app2 f s (.got v) c l up) .tau (.app2 f s (afterCall s (f none v)) c l up)
  | app2Eof (f s c l up) : up.closed → Step (.app2 f s .idle c l up) .tau (.app2 f s .stopLeft c l up)
  | app2Stop (f s l up) :
      Step (.app2 f s .idle true l up) .tau (.app2 f s (closing .stopLeft .crash up) true l (closed1 up))
  | app2StopLeft (f s c l up) :
      Step (.app2 f s .stopLeft c l up) .tau (.app2 f s (closing .done .crash l) c (closed1 l) up)
  | app2Send (f s c v l up) : Step (.app2 f s (.send v) c l up) (.out v) (.app2 f s .idle c l up)
  | app2Err (f s c v l up) : Step (.app2 f s (.sendErr v) c l up) (.out v) (.app2 f s .failed c l up)
  | app2Fail (f s c l up) :
      Step (.app2 f s .failed c l up) .tau (.app2 f s (closing .done .crash up) c l (closed1 up))
  -- Scope
  | scopeUp (g st c up up') : Step up .tau up' → Step (.scope g st c up) .tau (.scope g st c up')
  | scopeRecv (g c v up up') : Step up (.out v) up' → Step (.scope g .idle c up) .tau (.scope (g ++ [v]) (.send v) c up')
  | scopeEof (g c up) : up.closed → Step (.scope g .idle c up) .tau (.scope g .done c up)
  | scopeStop (g up) : Step (.scope g .idle true up) .tau (.scope g (closing .done .crash up) true (closed1 up))
  | scopeSend (g c v up) : Step (.scope g (.send v) c up) (.out v) (.scope g .idle c up)
  | scopeStopSend (g v up) :
      Step (.scope g (.send v) true up) .tau (.scope g (closing .done .crash up) true (closed1 up))
  -- rhoChannel
  | chunkUp (n e m st c up up') : Step up .tau up' → Step (.chunk n e m st c up) .tau (.chunk n e m st c up')
  | chunkRecv (n e m b c v up up') : Step up (.out v) up' → Step (.chunk n e m (.idle b) c up) .tau (.chunk n e m (.push b (e v)) c up')
  | chunkPush (n e m b x xs c up) : Step (.chunk n e m (.push b (x :: xs)) c up) .tau (.chunk n e m (pushElem n b x xs) c up)
  | chunkNext (n e m b c up) : Step (.chunk n e m (.push b []) c up) .tau (.chunk n e m (.idle b) c up)
  | chunkSend (n e m b xs c up) : Step (.chunk n e m (.full b xs) c up) (.out (m b)) (.chunk n e m (.push [] xs) c up)
  | chunkStopPush (n e m b xs up) :  -- `return` leaves the closure `push` only
      Step (.chunk n e m (.full b xs) true up) .tau
        (.chunk n e m (closing (.push b xs) .crash up) true (closed1 up))
  | chunkEof (n e m b c up) : up.closed → Step (.chunk n e m (.idle b) c up) .tau (.chunk n e m .done c up)
  | chunkStop (n e m b up) :
      Step (.chunk n e m (.idle b) true up) .tau (.chunk n e m (closing .done .crash up) true (closed1 up))

/-- What a reader does with a value: go on, or leave the loop. -/
inductive Next (A : Type)
  | more (a : A)
  | stop (a : A)

/-- The state of `for v := range c[0] { … break … }; c.Close()` (apl/operators/reduce.go:344-355, 671-681; `Close`: apl/channel.go:38-42). -/
inductive ReadSt (A : Type)
  | read (a : A)
  | close (a : A)
  | drain (a : A)
  | fin (a : A)

/-- apl/operators/reduce.go:664-688 `reduceChannel`: the loop body; `none` is a nil `res` -/
def reduceStep {E} (f : V → V → Except E V) (res : Except E (Option V)) (v : V) : Next (Except E (Option V)) :=
  match res with
  | .error e => .stop (.error e)
  | .ok none => .more (.ok (some v))
  | .ok (some r) =>
    match f r v with
    | .ok w => .more (.ok (some w))
    | .error e => .stop (.error e)

/-- apl/operators/reduce.go:340-363 `scanChannel`: the loop body -/
def scanStep {E} (f : V → V → Except E V) (res : Except E (List V)) (v : V) : Next (Except E (List V)) :=
  match res with
  | .error e => .stop (.error e)
  | .ok vec =>
    match vec.getLast? with
    | none => .more (.ok [v])
    | some r =>
      match f r v with
      | .ok w => .more (.ok (vec ++ [w]))
      | .error e => .stop (.error e)

/-- A reader beside a tree of goroutines. -/
inductive SysStep {A : Type} (g : A → V → Next A) : Proc V × ReadSt A → Proc V × ReadSt A → Prop
  | tau (p p' r) : Step p .tau p' → SysStep g (p, r) (p', r)
  | more (p p' v a a') : Step p (.out v) p' → g a v = .more a' → SysStep g (p, .read a) (p', .read a')
  | stop (p p' v a a') : Step p (.out v) p' → g a v = .stop a' → SysStep g (p, .read a) (p', .close a')
  | eof (p a) : p.closed → SysStep g (p, .read a) (p, .close a)
  | close (p a) : p.cancelled = false → SysStep g (p, .close a) (p.cancel, .drain a)
  | drain (p p' v a) : Step p (.out v) p' → SysStep g (p, .drain a) (p', .drain a)
  | fin (p a) : p.closed → SysStep g (p, .drain a) (p, .fin a)

/-- The state of `takeChannel1` and `takeChannel2` (apl/primitives/take.go:270-303): values still to read and those read. -/
inductive TakeSt (V : Type)
  | take (n : Nat) (vs : List V)
  | fail

/-- `takeChannel2` beside a tree of goroutines -/
inductive TakeStep : Proc V × TakeSt V → Proc V × TakeSt V → Prop
  | tau (p p' r) : Step p .tau p' → TakeStep (p, r) (p', r)
  | recv (p p' v n vs) : Step p (.out v) p' → TakeStep (p, .take (n + 1) vs) (p', .take n (vs ++ [v]))
  | eof (p n vs) : p.closed → TakeStep (p, .take (n + 1) vs) (p, .fail)

/-- apl/primitives/channel.go:15-62 `channelSource`, the goroutine of `<R` and `<[k]R`: the number of repetitions is the axis, or one if there is none, from which
`splitAxis` (apl/primitives/axis.go:12-36) has taken the index origin; then the origin is added in both cases.  `none` is the goroutine of the number zero, which sends
once and does not close the channel (not modelled). -/
def sourceOf (origin : Int) (axis : Option Int) (v : V) : Option (Proc V) :=
  let n := (match axis with | some k => k - origin | none => 1) + origin
  if n = 0 then none
  else if n > 0 then some (.src (List.replicate n.toNat v) false false)
  else some (.rep v false false)

end Iv

import Verif.Model.Effect
/-
Remote procedure calls: apl/rpc (rpc.go, server.go, register.go).
Simplifications: the client and the server work in turns (a call waits for its response), so the network is a function from requests to responses;
the network itself does not fail; the encoding of Go's `gob` is modelled by what it does to the fields: a field with the zero value (the empty string,
nil) is not sent, and decoding leaves a field that is not sent as it is; values that are not registered in init.go cannot be encoded.
-/
namespace Iv

variable {σ P X Fun D : Type}

/-- the interpreter of the server, with state `σ`: parsing gives expressions, these evaluate to any values, some of which are functions -/
structure RpcHost (σ P X Fun D : Type) where
  parse : String → σ → Res (List P) × σ
  eval : P → σ → Res X × σ
  toFn : X → Option Fun
  call : Fun → Option D → D → σ → Res D × σ

/-- apl/rpc/server.go:32-35 `Request` -/
structure RpcReq (D : Type) where
  fn : String
  l : Option D
  r : Option D

/-- the request before the first is decoded (server.go:44) -/
def RpcReq.zero : RpcReq D := ⟨"", none, none⟩

/-- server.go:47: decoding into the same variable each time: only fields that have been sent are set. -/
def gobMerge (old new : RpcReq D) : RpcReq D :=
  ⟨if new.fn = "" then old.fn else new.fn, new.l <|> old.l, new.r <|> old.r⟩

/-- apl/rpc/server.go:72-78: the value of the expression must be a function -/
def rpcApply (H : RpcHost σ P X Fun D) (l : Option D) (r : D) : Res X × σ → Res D × σ
  | (.error e, s) => (.error e, s)
  | (.ok x, s) => match H.toFn x with
    | none => (.error .err, s)
    | some f => H.call f l r s

/-- apl/rpc/server.go:68-78: the function must be a single expression -/
def rpcEval (H : RpcHost σ P X Fun D) (l : Option D) (r : D) : Res (List P) × σ → Res D × σ
  | (.error e, s) => (.error e, s)
  | (.ok [p], s) => rpcApply H l r (H.eval p s)
  | (.ok _, s) => (.error .err, s)

/-- apl/rpc/server.go:64-79 `exec` -/
def rpcExec (H : RpcHost σ P X Fun D) (q : RpcReq D) (s : σ) : Res D × σ :=
  match q.r with
  | none => (.error .err, s)
  | some r => rpcEval H q.l r (H.parse q.fn s)

/-- the state of a connection: `up` tells if it is open, `req` is the server's last request, `alive` tells if the server's process runs -/
structure RpcLink (σ D : Type) where
  up : Bool
  alive : Bool
  req : RpcReq D
  host : σ

/-- apl/rpc/server.go:50-60 and apl/rpc/rpc.go:49-59: the response on its way to the client.  A panic of the function is not recovered: it ends the
server.  A result that cannot be encoded closes the connection. -/
def rpcRespond (sendable : D → Bool) (q : RpcReq D) : Res D × σ → Res D × RpcLink σ D
  | (.error .panic, s) => (.error .err, ⟨false, false, q, s⟩)
  | (.error .err, s) => (.error .err, ⟨true, true, q, s⟩)
  | (.ok v, s) => if sendable v then (.ok v, ⟨true, true, q, s⟩) else (.error .err, ⟨false, true, q, s⟩)

/-- can the request be encoded -/
def RpcReq.sendable (sendable : D → Bool) (q : RpcReq D) : Bool := (q.l.all sendable) && (q.r.all sendable)

/-- apl/rpc/rpc.go:43-60 `Conn.Call` together with the server's loop in apl/rpc/server.go:42-62 `handle` -/
def rpcCall (H : RpcHost σ P X Fun D) (sendable : D → Bool) (k : RpcLink σ D) (q : RpcReq D) : Res D × RpcLink σ D :=
  if k.up && k.alive then
    if q.sendable sendable then
      rpcRespond sendable (gobMerge k.req q) (rpcExec H (gobMerge k.req q) k.host)
    else (.error .err, { k with up := false })
  else (.error .err, k)

/-- a call in a program: the name or text of the function, and one or two arguments -/
structure RpcArgs (D : Type) where
  fn : String
  l : Option D
  r : D

/-- apl/rpc/rpc.go:44 -/
def RpcArgs.req (c : RpcArgs D) : RpcReq D := ⟨c.fn, c.l, some c.r⟩

/-- the calls of a client on a connection, one after the other -/
def rpcCalls (H : RpcHost σ P X Fun D) (sendable : D → Bool) : RpcLink σ D → List (RpcArgs D) → List (Res D) × RpcLink σ D
  | k, [] => ([], k)
  | k, c :: cs =>
    let x := rpcCall H sendable k c.req
    let y := rpcCalls H sendable x.2 cs
    (x.1 :: y.1, y.2)

/-- apl/rpc/server.go:14-30 `ListenAndServe`: one connection after the other; each has its own request variable. -/
def rpcServe (H : RpcHost σ P X Fun D) (sendable : D → Bool) : Bool × σ → List (List (RpcArgs D)) → List (List (Res D)) × (Bool × σ)
  | s, [] => ([], s)
  | (alive, s), cs :: css =>
    let x := rpcCalls H sendable ⟨alive, alive, .zero, s⟩ cs
    let y := rpcServe H sendable (x.2.alive, x.2.host) css
    (x.1 :: y.1, y.2)

/-- the arguments of `rpc→call` -/
inductive RpcItem (D : Type)
  | conn (c : Nat)
  | str (s : String)
  | val (v : D)

/-- the value of an item of the list -/
inductive RpcCmd (D : Type)
  | call (c : Nat) (q : String) (l : Option (RpcItem D)) (r : RpcItem D)

/-- apl/rpc/register.go:34-65 `call` -/
def rpcParse (l : Option (RpcItem D)) (r : Option (List (RpcItem D))) : Res (RpcCmd D) :=
  match l with
  | some _ => .error .err
  | none => match r with
    | some [.conn c, .str f, x] => .ok (.call c f none x)
    | some [.conn c, .str f, x, y] => .ok (.call c f (some x) y)
    | _ => .error .err

end Iv

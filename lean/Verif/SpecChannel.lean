import Verif.Model.Channel
/-
What a pipeline of channels sends, without goroutines.
-/
namespace Iv
variable {V : Type}

/-- A pipeline: where the values come from and what is done to them. -/
inductive Pipe (V : Type)
  /-- the given values, e.g. `<¨A` or `<R` -/
  | values (l : List V)
  /-- the same value for ever: `<[¯1]v` -/
  | forever (v : V)
  /-- the lines of a file -/
  | textLines (l : List V)
  /-- `f¨C`, `f⌿C`, `f C`, `L f¨C`: apply a function; values that `skip` holds of are left out -/
  | each (f : V → Except V V) (skip : V → Bool) (P : Pipe V)
  /-- `L f¨C` with a channel `L` -/
  | each2 (f : Option V → V → Except V V) (skip : V → Bool) (L P : Pipe V)
  /-- `⎕←C` -/
  | printed (P : Pipe V)
  /-- `S⍴C`: arrays of `n` elements -/
  | reshaped (n : Nat) (elems : V → List V) (mk : List V → V) (P : Pipe V)

/-- Apply a function to values in order: the results that are not skipped, up to and including the first error.  The second part tells if there
was an error. -/
def feed {β : Type} (f : β → Except V V) (skip : V → Bool) : List β → List V × Bool
  | [] => ([], false)
  | u :: us =>
    match f u with
    | .error e => ([e], true)
    | .ok w => (if skip w then (feed f skip us).1 else w :: (feed f skip us).1, (feed f skip us).2)

/-- the values of two channels in pairs; `none` is the left value when the left channel has ended -/
def pairs (ls us : List V) : List (Option V × V) := us.zipIdx.map (fun p => (ls[p.2]?, p.1))

/-- full groups of `n` elements -/
def groups (n : Nat) (mk : List V → V) (xs : List V) : List V := (List.range (xs.length / n)).map (fun i => mk ((xs.drop (i * n)).take n))

/-- `Sends P vs true`: the pipeline sends exactly the values `vs` and closes its channel.  `Sends P vs false`: these are the first values it
sends. -/
inductive Sends : Pipe V → List V → Bool → Prop
  | values (l) : Sends (.values l) l true
  | forever (v k) : Sends (.forever v) (List.replicate k v) false
  | textLines (l) : Sends (.textLines l) l true
  | each (f skip P us d) : Sends P us d → Sends (.each f skip P) (feed f skip us).1 ((feed f skip us).2 || d)
  | each2 (f skip L P ls us dl d) : Sends L ls dl → Sends P us d → us.length ≤ ls.length ∨ dl = true →
      Sends (.each2 f skip L P) (feed (fun q => f q.1 q.2) skip (pairs ls us)).1 ((feed (fun q => f q.1 q.2) skip (pairs ls us)).2 || d)
  | printed (P vs d) : Sends P vs d → Sends (.printed P) vs d
  | reshaped (n elems mk P us d) : Sends P us d → Sends (.reshaped n elems mk P) (groups n mk (us.flatMap elems)) d
  | first (P vs d ws) : Sends P vs d → ws <+: vs → Sends P ws false

/-- all sources end -/
def Pipe.Finite : Pipe V → Prop
  | .values _ => True
  | .forever _ => False
  | .textLines _ => True
  | .each _ _ P => P.Finite
  | .each2 _ _ L P => L.Finite ∧ P.Finite
  | .printed P => P.Finite
  | .reshaped _ _ _ P => P.Finite

/-- the values a pipeline with finite sources sends -/
def Pipe.output : Pipe V → List V
  | .values l => l
  | .forever _ => []
  | .textLines l => l
  | .each f skip P => (feed f skip P.output).1
  | .each2 f skip L P => (feed (fun q => f q.1 q.2) skip (pairs L.output P.output)).1
  | .printed P => P.output
  | .reshaped n elems mk P => groups n mk (P.output.flatMap elems)

/-- no reshape has arrays without elements -/
def Pipe.Sized : Pipe V → Prop
  | .values _ => True
  | .forever _ => True
  | .textLines _ => True
  | .each _ _ P => P.Sized
  | .each2 _ _ L P => L.Sized ∧ P.Sized
  | .printed P => P.Sized
  | .reshaped n _ _ P => 0 < n ∧ P.Sized

/-- The goroutines right after the pipeline has been built. -/
def Pipe.start : Pipe V → Proc V
  | .values l => .src l false false
  | .forever v => .rep v false false
  | .textLines l => .lines l false false
  | .each f skip P => .app f skip .idle false P.start
  | .each2 f skip L P => .app2 f skip .idle false L.start P.start
  | .printed P => .scope [] .idle false P.start
  | .reshaped n elems mk P => .chunk n elems mk (.idle []) false P.start

/-- `Reach P vs c p`: the goroutines of `P` can be in the state `p` after a reader has received the values `vs` and, if `c` holds, has then closed
`c[1]`; what it receives after that is thrown away. -/
inductive Reach (P : Pipe V) : List V → Bool → Proc V → Prop
  | start : Reach P [] false P.start
  | tau {vs c p p'} : Reach P vs c p → Step p .tau p' → Reach P vs c p'
  | out {vs p v p'} : Reach P vs false p → Step p (.out v) p' → Reach P (vs ++ [v]) false p'
  | drain {vs p v p'} : Reach P vs true p → Step p (.out v) p' → Reach P vs true p'
  | cancel {vs p} : Reach P vs false p → Reach P vs true p.cancel

/-- all goroutines have returned -/
def Proc.finished : Proc V → Prop
  | .src _ _ d => d = true
  | .rep _ _ d => d = true
  | .lines _ _ d => d = true
  | .app _ _ st _ up => st = .done ∧ up.finished
  | .app2 _ _ st _ l up => st = .done ∧ l.finished ∧ up.finished
  | .scope _ st _ up => st = .done ∧ up.finished
  | .chunk _ _ _ st _ up => st = .done ∧ up.finished

/-- a goroutine has panicked -/
def Proc.crashed : Proc V → Prop
  | .src _ _ _ => False
  | .rep _ _ _ => False
  | .lines _ _ _ => False
  | .app _ _ st _ up => st = .crash ∨ up.crashed
  | .app2 _ _ st _ l up => st = .crash ∨ l.crashed ∨ up.crashed
  | .scope _ st _ up => st = .crash ∨ up.crashed
  | .chunk _ _ _ st _ up => st = .crash ∨ up.crashed

/-- The left fold of values in the order they arrive; `none` for no values. -/
def foldValues {E : Type} (f : V → V → Except E V) : List V → Except E (Option V)
  | [] => .ok none
  | v :: vs => (vs.foldlM f v).map some

/-- All the left folds: of the first value, of the first two values and so on. -/
def runningFolds {E : Type} (f : V → V → Except E V) : List V → Except E (List V)
  | [] => .ok []
  | v :: vs => (List.range (vs.length + 1)).mapM (fun i => (vs.take i).foldlM f v)

/-- The states of a pipeline and a reader that starts with `a` and treats every value with `g`. -/
inductive Reads {A : Type} (g : A → V → Next A) (P : Pipe V) (a : A) : Proc V × ReadSt A → Prop
  | start : Reads g P a (P.start, .read a)
  | step {s s'} : Reads g P a s → SysStep g s s' → Reads g P a s'

/-- The states while `n` values are taken from a channel in the state `p`. -/
inductive Takes (p : Proc V) (n : Nat) : Proc V × TakeSt V → Prop
  | start : Takes p n (p, .take n [])
  | step {s s'} : Takes p n s → TakeStep s s' → Takes p n s'

/-- no reshape -/
def Pipe.Plain : Pipe V → Prop
  | .values _ => True
  | .forever _ => True
  | .textLines _ => True
  | .each _ _ P => P.Plain
  | .each2 _ _ L P => L.Plain ∧ P.Plain
  | .printed P => P.Plain
  | .reshaped _ _ _ _ => False

/-- one chain of stages with functions that do not fail -/
def Pipe.Chain : Pipe V → Prop
  | .values _ => True
  | .forever _ => True
  | .textLines _ => True
  | .each f _ P => (∀ v, ∃ w, f v = .ok w) ∧ P.Chain
  | .each2 _ _ _ _ => False
  | .printed P => P.Chain
  | .reshaped n _ _ P => 0 < n ∧ P.Chain

/-- a source without stages -/
def Pipe.Source : Pipe V → Prop
  | .values _ => True
  | .forever _ => True
  | .textLines _ => True
  | _ => False

end Iv

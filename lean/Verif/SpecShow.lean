import Verif.Model.Std
import Mathlib.Data.List.Forall2
/-
Specification for C92: which values of the interpreter are arrays of integers.
-/
namespace Iv
variable {V O : Type}

/-- the element is the integer `n`: an `Int`, or a `Bool` (true is 1, false is 0) -/
def ItemIs (x : UItem V O) (n : Int) : Prop := x = .num (.int n) ∨ ∃ b : Bool, x = .num (.bool b) ∧ n = if b then 1 else 0

/-- The value is the array of integers `a`.  Arrays have at least one element. -/
inductive Shows : AVal V O → Arr Int → Prop
  | scalar (x : UItem V O) (n : Int) : ItemIs x n → Shows (.scalar x) ⟨[], [n]⟩
  | arr (k : Kind) (d : List (UItem V O)) (a : Arr Int) : a.shape ≠ [] → a.WF → a.data ≠ [] → k = .int ∨ k = .bool ∨ k = .mixed →
      List.Forall₂ ItemIs d a.data → Shows (.arr k ⟨a.shape, d⟩) a

/-- The value of an optional left argument. -/
inductive ShowsLeft : Option (AVal V O) → Option (Arr Int) → Prop
  | none : ShowsLeft none none
  | some (v : AVal V O) (a : Arr Int) : Shows v a → ShowsLeft (some v) (some a)

/-- The interpreter `sys` has the primitive functions and the operators of Model/Std.lean: for arrays of integers, its table of primitives
leads to these functions; its operators `/`, `\`, `⍨` and `¨` are the ones of Model/Std.lean for functions with such arguments; strands, copies and
truth values are the ones of Model/Std.lean.  Nothing is said about other arguments and other symbols.  `ident` gives the identity items. -/
structure StdSys (e : StdEnv V O) (ident : Func (AVal V O) → Option (UItem V O)) {H : Type} (sys : Sys (AVal V O) H) : Prop where
  prim : ∀ p : Calc.Prim, ∃ hs, sys.prims (String.ofList [p.char]) = some hs ∧
    (∀ rec r a s, Shows r a → dispatch (fun h => h.call) rec none (.data r) hs s = some ((e.prim1 s.origin p r).map .data, s)) ∧
    (∀ rec l r a b s, Shows l a → Shows r b →
      dispatch (fun h => h.call) rec (some (.data l)) (.data r) hs s = some ((e.prim2 p l r).map .data, s))
  reduce : ∃ o os, sys.ops "/" = o :: os ∧ o.dyadic = false ∧
    ∀ rec f r a s, Shows r a → dispatchOp (fun h LO RO => h.derived LO RO none (.data r)) rec (.fn f) none (o :: os) s =
      runAct rec (e.reduceAct ident f r) s
  scan : ∃ o os, sys.ops "\\" = o :: os ∧ o.dyadic = false ∧
    ∀ rec f r a s, Shows r a → dispatchOp (fun h LO RO => h.derived LO RO none (.data r)) rec (.fn f) none (o :: os) s =
      runAct rec (e.scanAct f r) s
  each : ∃ o os, sys.ops "¨" = o :: os ∧ o.dyadic = false ∧
    ∀ rec f l al r ar s, f ≠ .prim "<" → ShowsLeft l al → Shows r ar →
      dispatchOp (fun h LO RO => h.derived LO RO (l.map .data) (.data r)) rec (.fn f) none (o :: os) s =
        runAct rec (e.eachAct f l r) s
  swap : ∃ o os, sys.ops "⍨" = o :: os ∧ o.dyadic = false ∧
    ∀ rec f l al r ar s, ShowsLeft l al → Shows r ar →
      dispatchOp (fun h LO RO => h.derived LO RO (l.map .data) (.data r)) rec (.fn f) none (o :: os) s =
        runAct rec (swapAct f (l.map .data) (.data r)) s
  copy : ∀ rec r a s, Shows r a → runAct rec (sys.copy (.data r)) s = some (.ok (.data r), s)
  copyFn : ∀ rec f s, runAct rec (sys.copy (.fn f)) s = some (.ok (.fn f), s)
  strand : ∀ rec (ns : List Int) s, 2 ≤ ns.length →
    runAct rec (sys.strand (ns.map (fun n => .data (.scalar (.num (.int n)))))) s =
      runAct rec (e.strandAct (ns.map (fun n => .data (.scalar (.num (.int n)))))) s
  isScalar : ∀ x, sys.isScalar (.scalar x) = true
  toBool : ∀ x n, ItemIs x n → sys.toBool (.scalar x) = e.toBool (.scalar x)

end Iv

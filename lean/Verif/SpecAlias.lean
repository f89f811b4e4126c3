import Verif.Model.Alias
/-
Independent specification of the values held by variables that refer to storage: the finite tree a value denotes, and the
storage it uses.
-/
namespace Iv

variable {A T : Type}

/-- A value as the user sees it, without references. -/
inductive Tree (A T : Type) : Type
  | atom (a : A)
  | empty
  | arr (ty : Option T) (shape : List Nat) (elems : List (Tree A T))
  | list (elems : List (Tree A T))
  | dict (keys : List A) (m : List (A × Tree A T))
  | table (keys : List A) (m : List (A × Tree A T)) (rows : Nat)

/-- the shape stored at an address -/
def dimsAt (h : Heap A T) (p : Nat) : Option (List Nat) :=
  match h[p]? with
  | some (.dims l) => some l
  | _ => none

/-- the elements stored at an address -/
def slotsAt (h : Heap A T) (p : Nat) : Option (List (HV A T)) :=
  match h[p]? with
  | some (.slots l) => some l
  | _ => none

/-- the dictionary stored at an address -/
def dictAt (h : Heap A T) (p : Nat) : Option (List A × List (A × HV A T)) :=
  match h[p]? with
  | some (.dict k m) => some (k, m)
  | _ => none

/-- The tree a value denotes, up to a depth. -/
def treeOf (h : Heap A T) : Nat → HV A T → Option (Tree A T)
  | 0, _ => none
  | _ + 1, .atom a => some (.atom a)
  | _ + 1, .empty => some .empty
  | n + 1, .arr ty d p => do
    let s ← dimsAt h d
    let l ← slotsAt h p
    let ts ← l.mapM (treeOf h n)
    some (.arr ty s ts)
  | n + 1, .list p => do
    let l ← slotsAt h p
    let ts ← l.mapM (treeOf h n)
    some (.list ts)
  | n + 1, .dict p => do
    let km ← dictAt h p
    let ts ← km.2.mapM (fun e => (treeOf h n e.2).map (fun t => (e.1, t)))
    some (.dict km.1 ts)
  | n + 1, .table p rows => do
    let km ← dictAt h p
    let ts ← km.2.mapM (fun e => (treeOf h n e.2).map (fun t => (e.1, t)))
    some (.table km.1 ts rows)

/-- The value `v` denotes the tree `t`. -/
def Denotes (h : Heap A T) (v : HV A T) (t : Tree A T) : Prop := ∃ n, treeOf h n v = some t

/-- The variable `x` holds the value `t`. -/
def Mem.Holds {X : Type} (σ : Mem X A T) (x : X) (t : Tree A T) : Prop := ∃ v, σ.vars x = some v ∧ Denotes σ.heap v t

/-- the addresses in a value -/
def HV.addrs : HV A T → List Nat
  | .atom _ => []
  | .empty => []
  | .arr _ d p => [d, p]
  | .list p => [p]
  | .dict p => [p]
  | .table p _ => [p]

/-- the values in an object -/
def Obj.refs : Obj A T → List (HV A T)
  | .dims _ => []
  | .slots l => l
  | .dict _ m => m.map (·.2)

/-- The value `v` uses the storage at the address `p`, directly or through its parts. -/
inductive Uses (h : Heap A T) : HV A T → Nat → Prop
  | here {v : HV A T} {p : Nat} : p ∈ v.addrs → Uses h v p
  | there {v w : HV A T} {o : Obj A T} {p q : Nat} : q ∈ v.addrs → h[q]? = some o → w ∈ o.refs → Uses h w p → Uses h v p

/-- No dangling reference in a value. -/
def HV.Valid (h : Heap A T) (v : HV A T) : Prop := ∀ p, p ∈ v.addrs → p < h.length

/-- No dangling reference in the heap. -/
def HeapValid (h : Heap A T) : Prop := ∀ (p : Nat) (o : Obj A T), h[p]? = some o → ∀ w, w ∈ o.refs → w.Valid h

/-- An expression that only creates new storage and changes nothing that exists: the new heap starts with the old one.  Its value
may refer to old storage. -/
def Expression {X : Type} (e : (X → Option (HV A T)) → HM A T (HV A T)) : Prop :=
  ∀ vars h r h', e vars h = some (r, h') → HeapValid h → (∀ x v, vars x = some v → v.Valid h) →
    (∃ new, h' = h ++ new) ∧ HeapValid h' ∧ ∀ v, r = .ok v → v.Valid h'

/-- A modifying function that only allocates, in heaps with at least `m` objects: it may refer to the storage the variables use
at the time of the assignment. -/
def PureFn (m : Nat) (f : ModFn A T) : Prop :=
  ∀ l r h res h', f l r h = some (res, h') → m ≤ h.length → HeapValid h → (∀ x, l = some x → x.Valid h) → r.Valid h →
    (∃ new, h' = h ++ new) ∧ HeapValid h' ∧ ∀ v, res = .ok v → v.Valid h'

/-- A modifying function whose result uses no storage but new one and that of its arguments. -/
def OwnResult (f : ModFn A T) : Prop :=
  ∀ l r h v h', f l r h = some (.ok v, h') → ∀ p, Uses h' v p →
    h.length ≤ p ∨ (∃ x, l = some x ∧ Uses h x p) ∨ Uses h r p

end Iv

import Verif.Props.Index
import Verif.Props.Dot
/-
C17 indexed assignment.
-/
namespace Iv
variable {α : Type} {m : Type → Type} [Monad m] [LawfulMonad m]

/-- Specification: the element with the flat position `p` and the value `old` after the updates `ps` (position, value), in
order: `upd x v` is the new element for the element `x` and the value `v`. -/
def afterUpdates (upd : α → α → α) (ps : List (Int × α)) (p : Nat) (old : α) : α :=
  ((ps.filter (fun q => q.1 = (p : Int))).map Prod.snd).foldl upd old

/-- a modifier without effects -/
def pureMod (g : Option (α → α → α)) : Option (α → α → ExceptT Fail m α) := g.map (fun g x y => pure (g x y))

/-- the update of one element: `v` without a modifier, `old g v` with the modifier `g` -/
def upd1 (g : Option (α → α → α)) (x v : α) : α := match g with | none => v | some g => g x v

theorem setElem_ok (fits : Kind → α → Bool) (k : Kind) (d : List α) (i : Nat) (v : α) (h : i < d.length) :
    ∃ k', setElem fits (k, d) (i : Int) v = .ok (k', d.set i v) ∧ (k' = k ∨ k' = .mixed) ∧ (k' = k ↔ (k = .mixed ∨ fits k v = true)) := by
  have hr : 0 ≤ (i : Int) ∧ (i : Int) < d.length := by omega
  unfold setElem setRaw
  simp only [if_pos hr, bind, Except.bind, Int.toNat_natCast]
  by_cases hf : k = .mixed ∨ fits k v = true
  · exact ⟨k, by rw [if_pos hf]; rfl, Or.inl rfl, by simp [hf]⟩
  · refine ⟨.mixed, by rw [if_neg hf]; rfl, Or.inr rfl, ?_⟩
    simp only [hf, iff_false]
    intro h; exact hf (Or.inl h.symm)

theorem modAssign_pure (fits : Kind → α → Bool) (g : Option (α → α → α)) (k : Kind) (d : List α) (i : Int) (v : α)
    (h : i = -1 ∨ (0 ≤ i ∧ i < d.length)) :
    ∃ k' d', modAssign (m := m) fits (pureMod g) (k, d) i v = pure (k', d') ∧ d'.length = d.length ∧
      (∀ p : Nat, d'[p]? = if (p : Int) = i then (d[p]?).map (fun x => upd1 g x v) else d[p]?) := by
  unfold modAssign
  by_cases hi : i = -1
  · refine ⟨k, d, by rw [if_pos hi], rfl, ?_⟩
    intro p; rw [if_neg (by omega)]
  · rw [if_neg hi]
    have hr : 0 ≤ i ∧ i < d.length := by omega
    obtain ⟨n, rfl⟩ : ∃ n : Nat, i = n := ⟨i.toNat, by omega⟩
    have hn : n < d.length := by omega
    have hset : ∀ (w : α) (p : Nat), (d.set n w)[p]? = if (p : Int) = n then (d[p]?).map (fun _ => w) else d[p]? := by
      intro w p
      rw [List.getElem?_set]
      by_cases hp : n = p
      · subst hp; simp [hn]
      · rw [if_neg hp, if_neg (by omega)]
    cases g with
    | none =>
      obtain ⟨k', e, _⟩ := setElem_ok fits k d n v hn
      simp only [pureMod, Option.map_none]
      rw [e]
      exact ⟨k', d.set n v, ofRes_ok _, by simp, fun p => by rw [hset]; rfl⟩
    | some g =>
      simp only [pureMod, Option.map_some]
      rw [if_neg (by omega), sliceAt_ok (by simpa using hn), ofRes_ok]
      simp only [pure_bind, Int.toNat_natCast]
      obtain ⟨k', e, _⟩ := setElem_ok fits k d n (g d[n] v) hn
      rw [e]
      refine ⟨k', _, ofRes_ok _, by simp, ?_⟩
      intro p
      rw [hset]
      by_cases hp : (p : Int) = n
      · rw [if_pos hp, if_pos hp]
        obtain rfl : p = n := by omega
        simp [hn, upd1]
      · rw [if_neg hp, if_neg hp]

theorem assignLoop_pure (fits : Kind → α → Bool) (g : Option (α → α → α)) (ps : List (Int × α)) (k : Kind) (d : List α)
    (h : ∀ q ∈ ps, q.1 = -1 ∨ (0 ≤ q.1 ∧ q.1 < d.length)) :
    ∃ k' d', assignLoop (m := m) fits (pureMod g) ps (k, d) = pure (k', d') ∧ d'.length = d.length ∧
      ∀ p : Nat, d'[p]? = (d[p]?).map (afterUpdates (upd1 g) ps p) := by
  induction ps generalizing k d with
  | nil => exact ⟨k, d, rfl, rfl, fun p => by
      have : afterUpdates (upd1 g) [] p = id := rfl
      rw [this]; simp⟩
  | cons q ps ih =>
    obtain ⟨i, v⟩ := q
    obtain ⟨k1, d1, e1, e2, e3⟩ := modAssign_pure (m := m) fits g k d i v (h (i, v) (by simp))
    obtain ⟨k2, d2, f1, f2, f3⟩ := ih k1 d1 (fun q hq => by rw [e2]; exact h q (by simp [hq]))
    refine ⟨k2, d2, ?_, by omega, ?_⟩
    · rw [assignLoop, e1, pure_bind, f1]
    · intro p
      rw [f3, e3]
      by_cases hp : (p : Int) = i
      · rw [if_pos hp, Option.map_map]
        congr 1
        funext x
        simp [afterUpdates, hp]
      · rw [if_neg hp]
        congr 1
        funext x
        have : ¬ i = (p : Int) := fun e => hp e.symm
        simp [afterUpdates, this]

/-- The values to assign to `n` selected positions: a scalar or one-element array is repeated; the elements of an array in
row-major order otherwise. -/
def assignedValues (n : Nat) : Val α → List α
  | .scalar v => List.replicate n v
  | .arr _ b => match b.data with | [v] => List.replicate n v | d => d
  | _ => []

/-- `R` can be assigned to a selection of shape `s` (`n` elements): it is a scalar, has one element, or has the same shape up
to axes of length 1. -/
def Conforms (s : List Nat) : Val α → Prop
  | .scalar _ => True
  | .arr _ b => b.data.length = 1 ∨ s.filter (· ≠ 1) = b.shape.filter (· ≠ 1)
  | _ => False

theorem assignValue_go (fits : Kind → α → Bool) (f : Option (α → α → ExceptT Fail m α)) (k : Kind) (a : Arr α) (idx : List Nat × List Int) (R : Val α)
    (hR : Conforms idx.1 R) (hlen : (assignedValues idx.2.length R).length = idx.2.length) :
    assignValue fits f (.arr k a) idx R = (do
      let s ← assignLoop fits f (idx.2.zip (assignedValues idx.2.length R)) (k, a.data)
      return .arr s.1 ⟨a.shape, s.2⟩) := by
  cases R with
  | scalar v => rfl
  | empty => exact hR.elim
  | bad => exact hR.elim
  | arr kb b =>
    simp only [assignValue, assignedValues] at hlen ⊢
    obtain ⟨s, d⟩ := b
    match d with
    | [v] => rfl
    | [] =>
      simp only [Conforms, List.length_nil] at hR
      rcases hR with hR | hR
      · omega
      · simp only [List.length_nil] at hlen
        simp only [hR, ne_eq, not_true_eq_false, if_false, List.length_nil]
        rw [if_neg (by omega)]
    | x :: y :: t =>
      simp only [Conforms] at hR
      rcases hR with hR | hR
      · simp at hR
      · simp only at hlen
        rw [if_neg (by simpa using hR)]
        rw [if_neg (by show ¬ (x :: y :: t).length < _; omega)]

/-- C17: assignment to the flat positions `idx` (-1 is skipped), with or without a modifier: the shape stays, every element
holds its value after the updates addressed to it, in order; in particular an element that is not addressed is unchanged. -/
theorem C17_flat (fits : Kind → α → Bool) (g : Option (α → α → α)) (k : Kind) (a : Arr α) (hw : a.WF) (idx : List Nat × List Int) (R : Val α)
    (hidx : ∀ i ∈ idx.2, i = -1 ∨ (0 ≤ i ∧ i < a.data.length))
    (hR : Conforms idx.1 R) (hlen : (assignedValues idx.2.length R).length = idx.2.length) :
    ∃ k' a', assignValue (m := m) fits (pureMod g) (.arr k a) idx R = pure (.arr k' a') ∧ a'.WF ∧ a'.shape = a.shape ∧
      ∀ i, InB a.shape i → a'.get? i = (a.get? i).map (afterUpdates (upd1 g) (idx.2.zip (assignedValues idx.2.length R)) (flat a.shape i)) := by
  rw [assignValue_go fits _ k a idx R hR hlen]
  obtain ⟨k', d', e1, e2, e3⟩ := assignLoop_pure (m := m) fits g (idx.2.zip (assignedValues idx.2.length R)) k a.data (by
    intro q hq; exact hidx _ (List.of_mem_zip (a := q.1) (b := q.2) hq).1)
  rw [e1, pure_bind]
  refine ⟨k', ⟨a.shape, d'⟩, rfl, by show d'.length = _; rw [e2]; exact hw, rfl, ?_⟩
  intro i hi
  rw [Arr.get?_of_inB (a := ⟨a.shape, d'⟩) hi, Arr.get?_of_inB hi, e3]

theorem afterUpdates_not (upd : α → α → α) (ps : List (Int × α)) (p : Nat) (old : α) (h : ∀ q ∈ ps, q.1 ≠ p) : afterUpdates upd ps p old = old := by
  unfold afterUpdates
  rw [List.filter_eq_nil_iff.2 (by intro q hq; simpa using h q hq)]; rfl

theorem afterUpdates_append (upd : α → α → α) (ps qs : List (Int × α)) (p : Nat) (old : α) :
    afterUpdates upd (ps ++ qs) p old = afterUpdates upd qs p (afterUpdates upd ps p old) := by
  simp [afterUpdates, List.filter_append, List.map_append, List.foldl_append]

theorem afterUpdates_last (g : Option (α → α → α)) (ps : List (Int × α)) (j p : Nat) (v old : α) (hj : ps[j]? = some ((p : Int), v))
    (hafter : ∀ j' q, j < j' → ps[j']? = some q → q.1 ≠ p)
    (hb : g = none ∨ ∀ j' q, j' < j → ps[j']? = some q → q.1 ≠ p) :
    afterUpdates (upd1 g) ps p old = upd1 g old v := by
  have hlt := (List.getElem?_eq_some_iff.1 hj).1
  have hsplit : ps = ps.take j ++ ((p : Int), v) :: ps.drop (j + 1) := by
    rw [← (List.getElem?_eq_some_iff.1 hj).2, List.getElem_cons_drop, List.take_append_drop]
  rw [hsplit, afterUpdates_append, show ((p : Int), v) :: ps.drop (j + 1) = [((p : Int), v)] ++ ps.drop (j + 1) from rfl, afterUpdates_append,
    afterUpdates_not _ (ps.drop (j + 1))]
  · have e : ∀ x, afterUpdates (upd1 g) [((p : Int), v)] p x = upd1 g x v := by intro x; simp [afterUpdates]
    rw [e]
    rcases hb with hb | hb
    · subst hb; rfl
    · rw [afterUpdates_not]
      intro q hq
      obtain ⟨j', hj'⟩ := List.getElem?_of_mem hq
      have hl := (List.getElem?_eq_some_iff.1 hj').1
      rw [List.length_take] at hl
      rw [List.getElem?_take_of_lt (by omega)] at hj'
      exact hb j' q (by omega) hj'
  · intro q hq
    obtain ⟨j', hj'⟩ := List.getElem?_of_mem hq
    rw [List.getElem?_drop] at hj'
    exact hafter _ q (by omega) hj'

theorem filter_ones_size (s : List Nat) : size (s.filter (· ≠ 1)) = size s := by
  induction s with
  | nil => rfl
  | cons n s ih =>
    rw [List.filter_cons]
    by_cases h : n = 1
    · subst h; simpa [size] using ih
    · simp only [ne_eq, h, not_false_eq_true, decide_true, if_true, size]
      rw [← ih]

theorem conforms_len {s : List Nat} {n : Nat} (hn : n = size s) {R : Val α} (hR : Conforms s R) (hwf : ∀ kb b, R = .arr kb b → b.WF) :
    (assignedValues n R).length = n := by
  cases R with
  | scalar v => simp [assignedValues]
  | empty => exact hR.elim
  | bad => exact hR.elim
  | arr kb b =>
    have hb := hwf kb b rfl
    unfold Arr.WF at hb
    obtain ⟨sb, d⟩ := b
    simp only [Conforms, assignedValues] at hR hb ⊢
    match d with
    | [v] => simp
    | [] =>
      rcases hR with hR | hR
      · simp at hR
      · rw [← filter_ones_size sb, ← hR, filter_ones_size, ← hn] at hb; simpa using hb
    | x :: y :: t =>
      rcases hR with hR | hR
      · simp at hR
      · rw [← filter_ones_size sb, ← hR, filter_ones_size, ← hn] at hb; simpa using hb

theorem indexSelection_spec {origin : Int} {spec : List AxSpec} {a : Arr α} {sel : List (List Nat)} (h : Selection origin spec a.shape sel) (hne : spec ≠ []) :
    ∃ I : List Nat, indexSelection origin spec a = .ok ((sel.map List.length).filter (· ≠ 1), I.map Int.ofNat) ∧ I.length = size (sel.map List.length) ∧
      (∀ dst, InB (sel.map List.length) dst → I[flat (sel.map List.length) dst]? = some (flat a.shape (pickAt sel dst))) ∧
      ∀ n ∈ I, n < size a.shape := by
  obtain ⟨I, h1, h2, h3, h4⟩ := indexArray_spec h hne
  have hI : I.data.length = size (sel.map List.length) := by rw [h2, h3]
  have hg : ∀ dst, InB (sel.map List.length) dst → I.data[flat (sel.map List.length) dst]? = some (flat a.shape (pickAt sel dst)) := by
    intro dst hd
    have hd' : InB I.shape dst := by rw [h3]; exact hd
    have := h4 dst hd'
    rwa [Arr.get?_of_inB hd', h3] at this
  refine ⟨I.data, ?_, hI, hg, ?_⟩
  · simp only [indexSelection, if_neg hne, h1, bind, Except.bind]; rfl
  · intro n hn
    obtain ⟨p, hp⟩ := List.getElem?_of_mem hn
    have hpl : p < size (sel.map List.length) := by rw [← hI]; exact (List.getElem?_eq_some_iff.1 hp).1
    have e := hg _ (unflat_inB hpl)
    rw [flat_unflat hpl, hp] at e
    simp only [Option.some.injEq] at e
    rw [e]
    exact flat_lt (pick_spec h _ (unflat_inB hpl)).2

/-- C17: `A[I;J;…]←R` for a valid specification and a conforming `R` (with or without a modifier `g`): the shape stays; an element
whose index is not a selected combination is unchanged; the element at the combination of positions `dst` is the `dst`-th
element of `R` (`old g` it with a modifier), if no later combination addresses the same element (and with a modifier: no
other one does). -/
theorem C17_bracket (fits : Kind → α → Bool) (g : Option (α → α → α)) (origin : Int) (spec : List AxSpec) (hne : spec ≠ [])
    (k : Kind) (a : Arr α) (hw : a.WF) (sel : List (List Nat)) (h : Selection origin spec a.shape sel)
    (R : Val α) (hR : Conforms (sel.map List.length) R) (hRw : ∀ kb b, R = .arr kb b → b.WF) :
    ∃ k' a', (do let idx ← ofRes (indexSelection origin spec a)
                 assignValue (m := m) fits (pureMod g) (.arr k a) idx R) = pure (.arr k' a') ∧ a'.WF ∧ a'.shape = a.shape ∧
      (∀ i, InB a.shape i → (∀ dst, InB (sel.map List.length) dst → pickAt sel dst ≠ i) → a'.get? i = a.get? i) ∧
      ∀ dst v, InB (sel.map List.length) dst →
        (assignedValues (size (sel.map List.length)) R)[flat (sel.map List.length) dst]? = some v →
        (∀ dst', InB (sel.map List.length) dst' → flat (sel.map List.length) dst < flat (sel.map List.length) dst' → pickAt sel dst' ≠ pickAt sel dst) →
        (g = none ∨ ∀ dst', InB (sel.map List.length) dst' → dst' ≠ dst → pickAt sel dst' ≠ pickAt sel dst) →
        a'.get? (pickAt sel dst) = (a.get? (pickAt sel dst)).map (fun old => upd1 g old v) := by
  obtain ⟨I, e1, e2, e3, e4⟩ := indexSelection_spec (a := a) h hne
  rw [e1, ofRes_ok, pure_bind]
  have hfil : Conforms ((sel.map List.length).filter (· ≠ 1)) R := by
    cases R with
    | scalar => trivial
    | empty => exact hR.elim
    | bad => exact hR.elim
    | arr kb b =>
      rcases hR with hR | hR
      · exact Or.inl hR
      · right; rw [← hR, List.filter_filter]; simp
  have hlen : (assignedValues (I.map Int.ofNat).length R).length = (I.map Int.ofNat).length := by
    rw [List.length_map]; exact conforms_len (by rw [e2]) hR hRw
  obtain ⟨k', a', f1, f2, f3, f4⟩ := C17_flat (m := m) fits g k a hw ((sel.map List.length).filter (· ≠ 1), I.map Int.ofNat) R (by
    intro i hi
    obtain ⟨n, hn, rfl⟩ := List.mem_map.1 hi
    have := e4 n hn
    right; simp only [Int.ofNat_eq_natCast]; rw [hw]; omega) hfil hlen
  simp only [List.length_map, e2] at f4 hlen
  have hps : ∀ (j : Nat) q, ((I.map Int.ofNat).zip (assignedValues (size (sel.map List.length)) R))[j]? = some q →
      ∃ dst, InB (sel.map List.length) dst ∧ flat (sel.map List.length) dst = j ∧ q.1 = (flat a.shape (pickAt sel dst) : Int) := by
    intro j q hq
    obtain ⟨h1, _⟩ := zip_getElem?_some hq
    have hj : j < size (sel.map List.length) := by
      have := (List.getElem?_eq_some_iff.1 h1).1; simpa [e2] using this
    refine ⟨unflat (sel.map List.length) j, unflat_inB hj, flat_unflat hj, ?_⟩
    rw [List.getElem?_map] at h1
    have := e3 _ (unflat_inB hj)
    rw [flat_unflat hj] at this
    rw [this] at h1
    simpa using h1.symm
  have hinj : ∀ i j, InB a.shape i → InB a.shape j → (flat a.shape i : Int) = flat a.shape j → i = j := by
    intro i j hi hj e
    rw [← unflat_flat hi, ← unflat_flat hj]; congr 1; omega
  refine ⟨k', a', f1, f2, f3, ?_, ?_⟩
  · intro i hi hno
    rw [f4 i hi]
    have : afterUpdates (upd1 g) ((I.map Int.ofNat).zip (assignedValues (size (sel.map List.length)) R)) (flat a.shape i) = id := by
      funext x
      apply afterUpdates_not
      intro q hq e
      obtain ⟨j, hj⟩ := List.getElem?_of_mem hq
      obtain ⟨dst, hd, _, he⟩ := hps j q hj
      rw [e] at he
      exact hno dst hd (hinj _ _ hi (pick_spec h dst hd).2 he).symm
    rw [this]; simp
  · intro dst v hd hv hlater hother
    have hib := (pick_spec h dst hd).2
    rw [f4 _ hib]
    congr 1
    funext x
    apply afterUpdates_last g _ (flat (sel.map List.length) dst)
    · have h1 : (I.map Int.ofNat)[flat (sel.map List.length) dst]? = some (flat a.shape (pickAt sel dst) : Int) := by
        rw [List.getElem?_map, e3 dst hd]; rfl
      rw [List.getElem?_zip_eq_some]
      exact ⟨h1, hv⟩
    · intro j' q hj' hq e
      obtain ⟨dst', hd', hf, he⟩ := hps j' q hq
      rw [e] at he
      exact hlater dst' hd' (by omega) (hinj _ _ hib (pick_spec h dst' hd').2 he).symm
    · rcases hother with hg | hg
      · exact Or.inl hg
      · right
        intro j' q hj' hq e
        obtain ⟨dst', hd', hf, he⟩ := hps j' q hq
        rw [e] at he
        exact hg dst' hd' (by intro h0; subst h0; omega) (hinj _ _ hib (pick_spec h dst' hd').2 he).symm

/-- C17: an `R` of another shape (up to axes of length 1) is rejected. -/
theorem C17_nonconforming (fits : Kind → α → Bool) (f : Option (α → α → ExceptT Fail m α)) (k : Kind) (a : Arr α) (idx : List Nat × List Int)
    (kb : Kind) (b : Arr α) (h1 : b.data.length ≠ 1) (h : idx.1.filter (· ≠ 1) ≠ b.shape.filter (· ≠ 1)) :
    assignValue fits f (.arr k a) idx (.arr kb b) = throw .err := by
  obtain ⟨s, d⟩ := b
  simp only [assignValue]
  match d with
  | [v] => simp at h1
  | [] => rw [if_pos h]
  | _ :: _ :: _ => rw [if_pos h]

/-- C17: the variable must hold an array. -/
theorem C17_no_array (fits : Kind → α → Bool) (f : Option (α → α → ExceptT Fail m α)) (x : α) (idx : List Nat × List Int) (R : Val α) :
    assignValue fits f (.scalar x) idx R = throw .err ∧ assignValue fits f .empty idx R = throw .err := ⟨rfl, rfl⟩

/-- C17: a position outside of the array makes the assignment fail. -/
theorem C17_out_of_range (fits : Kind → α → Bool) (f : Option (α → α → ExceptT Fail m α)) (k : Kind) (d : List α) (i : Int) (v : α)
    (h : i < -1 ∨ (d.length : Int) ≤ i) : ∃ e, modAssign fits f (k, d) i v = throw e := by
  unfold modAssign
  rw [if_neg (by omega)]
  cases f with
  | some f => exact ⟨.err, by simp only []; rw [if_pos (by omega)]⟩
  | none =>
    simp only [setElem, setRaw]
    rw [if_neg (by omega)]
    split
    · exact ⟨.panic, rfl⟩
    · rw [if_neg (by omega), if_neg (by simp)]
      exact ⟨.err, rfl⟩

/-! ### Concrete cases -/

/-- `A←⍳5 ⋄ A[2 4]←10 20`, `A[2 4]←9`, `A[2 2]←10 20` (the last write stays), `A[2 2]+←10 20`, an element that does not fit. -/
example : assignValue (m := Id) (fun _ _ => true) none (.arr .int ⟨[5], [1, 2, 3, 4, 5]⟩) ([2], [1, 3]) (.arr .int ⟨[2], [10, 20]⟩) =
    pure (Val.arr .int ⟨[5], [1, 10, 3, 20, 5]⟩) := by rfl
example : assignValue (m := Id) (fun _ _ => true) none (.arr .int ⟨[5], [1, 2, 3, 4, 5]⟩) ([2], [1, 3]) (.scalar 9) =
    pure (Val.arr .int ⟨[5], [1, 9, 3, 9, 5]⟩) := by rfl
example : assignValue (m := Id) (fun _ _ => true) none (.arr .int ⟨[5], [1, 2, 3, 4, 5]⟩) ([2], [1, 1]) (.arr .int ⟨[2], [10, 20]⟩) =
    pure (Val.arr .int ⟨[5], [1, 20, 3, 4, 5]⟩) := by rfl
example : assignValue (m := Id) (fun _ _ => true) (pureMod (some (· + ·))) (.arr .int ⟨[5], [1, 2, 3, 4, 5]⟩) ([2], [1, 1]) (.arr .int ⟨[2], [10, 20]⟩) =
    pure (Val.arr .int ⟨[5], [1, 32, 3, 4, 5]⟩) := by rfl
example : assignValue (m := Id) (fun _ v => decide (v < 100)) none (.arr .int ⟨[3], [1, 2, 3]⟩) ([1], [1]) (.scalar 100) =
    pure (Val.arr .mixed ⟨[3], [1, 100, 3]⟩) := by rfl
/-- the hypotheses of `C17_bracket`: `A←2 3⍴⍳6 ⋄ A[1;3 1]←7 8` -/
example : Selection 1 [.ints [1], .ints [3, 1]] [2, 3] [[0], [2, 0]] ∧ Conforms (([[0], [2, 0]] : List (List Nat)).map List.length) (.arr .int ⟨[2], [(7 : Int), 8]⟩) :=
  ⟨⟨⟨rfl, by decide⟩, ⟨rfl, by decide⟩, trivial⟩, Or.inr (by decide)⟩

end Iv

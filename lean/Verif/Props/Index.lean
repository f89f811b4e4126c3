import Verif.Model.Index
import Verif.Lemmas.Gather
import Verif.Props.Ops
import Verif.Lemmas.TakeDrop
/-
C16 bracket indexing.
-/
namespace Iv
variable {α : Type}

/-- Specification: the zero-based positions an axis specification selects on an axis of length `n`: all of them in order for
an elided axis, or the given indexes minus the index origin, which all have to lie on the axis. -/
def AxSpec.Positions (origin : Int) (n : Nat) : AxSpec → List Nat → Prop
  | .all, l => l = List.range n
  | .ints I, l => I = l.map (fun (p : Nat) => (p : Int) + origin) ∧ ∀ p ∈ l, p < n
  | .bad, _ => False

/-- Specification: `sel` are the positions selected on every axis of an array of the given shape. -/
def Selection (origin : Int) : List AxSpec → List Nat → List (List Nat) → Prop
  | [], [], [] => True
  | sp :: spec, n :: shape, l :: sel => sp.Positions origin n l ∧ Selection origin spec shape sel
  | _, _, _ => False

/-- Specification: the array at the index combination `dst` of the selections. -/
def pickAt (sel : List (List Nat)) (dst : List Nat) : List Nat := (sel.zip dst).map (fun p => p.1.getD p.2 0)

/-- Specification: remove the axes of length 1; without axes left the value is the element itself. -/
def squeeze (k : Kind) (r : Arr α) : Val α :=
  match r.shape.filter (· ≠ 1), r.data with
  | [], [v] => .scalar v
  | s, d => .arr k ⟨s, d⟩

theorem axisInts_iff {origin : Int} {n : Nat} {sp : AxSpec} {l : List Nat} :
    axisInts origin n sp = .ok l ↔ sp.Positions origin n l := by
  cases sp with
  | bad => simp [axisInts, AxSpec.Positions]
  | all => simp [axisInts, AxSpec.Positions, eq_comm]
  | ints I =>
    simp only [axisInts, AxSpec.Positions]
    induction I generalizing l with
    | nil =>
      simp only [List.mapM_nil, pure, Except.pure, Except.ok.injEq]
      constructor
      · intro h; subst h; simp
      · intro ⟨h, _⟩; cases l with
        | nil => rfl
        | cons => simp at h
    | cons i I ih =>
      rw [List.mapM_cons]
      by_cases hi : i - origin < 0 ∨ (n : Int) ≤ i - origin
      · rw [if_pos hi]
        simp only [bind, Except.bind]
        constructor
        · intro h; cases h
        · intro ⟨h, hl⟩
          cases l with
          | nil => simp at h
          | cons p l =>
            simp only [List.map_cons, List.cons.injEq] at h
            have := hl p (by simp)
            omega
      · rw [if_neg hi]
        simp only [bind, Except.bind]
        cases hr : I.mapM (fun i => if i - origin < 0 ∨ (n : Int) ≤ i - origin then (.error .err : Res Nat) else .ok (i - origin).toNat) with
        | error e =>
          simp only [hr]
          constructor
          · intro h; cases h
          · intro ⟨h, hl⟩
            cases l with
            | nil => simp at h
            | cons p l =>
              simp only [List.map_cons, List.cons.injEq] at h
              have := (ih (l := l)).2 ⟨h.2, fun q hq => hl q (by simp [hq])⟩
              rw [hr] at this; cases this
        | ok t =>
          have h1 := (ih (l := t)).1 hr
          simp only [pure, Except.pure, Except.ok.injEq]
          constructor
          · intro h; subst h
            refine ⟨?_, ?_⟩
            · simp only [List.map_cons, List.cons.injEq]
              exact ⟨by omega, h1.1⟩
            · intro p hp
              rcases List.mem_cons.1 hp with rfl | hp
              · omega
              · exact h1.2 p hp
          · intro ⟨h, hl⟩
            cases l with
            | nil => simp at h
            | cons p l =>
              simp only [List.map_cons, List.cons.injEq] at h
              have := (ih (l := l)).2 ⟨h.2, fun q hq => hl q (by simp [hq])⟩
              rw [hr] at this
              simp only [Except.ok.injEq] at this
              rw [this]
              simp only [List.cons.injEq, and_true]
              omega

theorem spec2ints_iff {origin : Int} {spec : List AxSpec} {shape : List Nat} {sel : List (List Nat)} :
    spec2ints origin spec shape = .ok sel ↔ Selection origin spec shape sel := by
  unfold spec2ints
  induction spec generalizing shape sel with
  | nil =>
    cases shape with
    | nil => cases sel <;> simp [Selection, pure, Except.pure]
    | cons n shape => cases sel <;> simp [Selection]
  | cons sp spec ih =>
    cases shape with
    | nil => simp [Selection]
    | cons n shape =>
      by_cases hl : spec.length = shape.length
      · rw [if_neg (by simpa using hl)]
        have ih' := fun sel' => @ih shape sel'
        simp only [hl, ne_eq, not_true_eq_false, if_false] at ih'
        rw [List.zip_cons_cons, List.mapM_cons]
        simp only [bind, Except.bind]
        cases h1 : axisInts origin n sp with
        | error e =>
          cases sel with
          | nil => simp [Selection]
          | cons l sel =>
            simp only [Selection]
            constructor
            · intro h; cases h
            · intro ⟨h, _⟩; rw [← axisInts_iff] at h; rw [h] at h1; cases h1
        | ok l =>
          simp only []
          cases h2 : (spec.zip shape).mapM (fun p => axisInts origin p.2 p.1) with
          | error e =>
            cases sel with
            | nil => simp [Selection]
            | cons l sel =>
              simp only [Selection]
              constructor
              · intro h; cases h
              · intro ⟨_, h⟩; rw [← ih', h2] at h; cases h
          | ok t =>
            cases sel with
            | nil => simp [Selection, pure, Except.pure]
            | cons l' sel =>
              simp only [Selection, pure, Except.pure, Except.ok.injEq, List.cons.injEq]
              rw [← axisInts_iff, ← ih', h1, h2]
              simp
      · rw [if_pos (by simpa using hl)]
        cases sel with
        | nil => simp [Selection]
        | cons l sel =>
          simp only [Selection]
          constructor
          · intro h; cases h
          · intro ⟨_, h⟩
            have := (@ih shape sel).2 h
            rw [if_pos hl] at this; cases this

theorem Selection.len {origin spec shape sel} (h : Selection origin spec shape sel) : sel.length = shape.length ∧ spec.length = shape.length := by
  induction spec generalizing shape sel with
  | nil => cases shape <;> cases sel <;> simp [Selection] at h ⊢
  | cons sp spec ih =>
    cases shape with
    | nil => simp [Selection] at h
    | cons n shape =>
      cases sel with
      | nil => simp [Selection] at h
      | cons l sel => have := ih h.2; simp; omega

theorem positions_lt {origin : Int} {n : Nat} {sp : AxSpec} {l : List Nat} (h : sp.Positions origin n l) : ∀ p ∈ l, p < n := by
  cases sp with
  | bad => exact h.elim
  | all => simp only [AxSpec.Positions] at h; subst h; simp
  | ints I => exact h.2

theorem pick_spec {origin spec shape sel} (h : Selection origin spec shape sel) (dst : List Nat) (hd : InB (sel.map List.length) dst) :
    pick sel dst = .ok (pickAt sel dst) ∧ InB shape (pickAt sel dst) := by
  induction spec generalizing shape sel dst with
  | nil =>
    cases shape <;> cases sel <;> simp [Selection] at h
    cases dst with
    | nil => exact ⟨rfl, trivial⟩
    | cons => simp [InB] at hd
  | cons sp spec ih =>
    cases shape with
    | nil => simp [Selection] at h
    | cons n shape =>
      cases sel with
      | nil => simp [Selection] at h
      | cons l sel =>
        cases dst with
        | nil => simp [InB] at hd
        | cons j dst =>
          obtain ⟨hj, hd⟩ := hd
          obtain ⟨h1, h2⟩ := ih h.2 dst hd
          have hp : l.getD j 0 = l[j] := getD_eq_getElem l 0 hj
          constructor
          · simp only [pick, List.zip_cons_cons, List.mapM_cons] at h1 ⊢
            rw [sliceAt_ok hj]
            simp only [bind, Except.bind]
            rw [h1]
            simp only [pickAt, List.zip_cons_cons, List.map_cons, hp]
            rfl
          · simp only [pickAt, List.zip_cons_cons, List.map_cons, hp]
            exact ⟨positions_lt h.1 _ (List.getElem_mem hj), h2⟩

theorem indexArray_spec {origin spec shape sel} (h : Selection origin spec shape sel) (hne : spec ≠ []) :
    ∃ I : Arr Nat, indexArray origin spec shape = .ok ((sel.map List.length).filter (· ≠ 1), I.data) ∧ I.WF ∧
      I.shape = sel.map List.length ∧ ∀ dst, InB I.shape dst → I.get? dst = some (flat shape (pickAt sel dst)) := by
  have hl := h.len
  have hsne : shape ≠ [] := by
    intro h0; rw [h0] at hl; exact hne (by simpa using hl.2)
  have hselne : sel.map List.length ≠ [] := by
    intro h0
    have : sel.length = 0 := by simpa using congrArg List.length h0
    rw [this] at hl; exact hsne (List.length_eq_zero_iff.1 hl.1.symm)
  obtain ⟨I, h1, h2, h3, h4⟩ := odo_spec (s := sel.map List.length) (g := fun dst => some (flat shape (pickAt sel dst)))
    (body := fun _ dst => do
      let src ← pick sel dst
      return icIndex (strides shape) src) (by
      intro dst hd
      obtain ⟨e1, e2⟩ := pick_spec h dst hd
      refine ⟨_, ?_, rfl⟩
      simp only [e1, bind, Except.bind, pure, Except.pure]
      rw [icIndex_strides e2.length_eq])
  refine ⟨I, ?_, h3, h2, fun dst hd => h4 dst (by rw [← h2]; exact hd)⟩
  unfold indexArray
  rw [spec2ints_iff.2 h]
  simp only [bind, Except.bind, newIdxConverter_ok hsne, prod_eq_size hselne]
  simp only [bind, Except.bind] at h1
  rw [h1]
  rfl

/-- C16: `A[I;J;…]` succeeds when every axis specification selects positions on its axis; before removing the axes of length 1,
the result has one axis per specification, as long as the number of selected positions, and at every index combination the
element of `A` at the selected positions.  (The result is that array with the axes of length 1 removed, or the element itself.) -/
theorem C16_index (uk : List α → Kind) (origin : Int) (spec : List AxSpec) (k : Kind) (a : Arr α) (hw : a.WF) (hne : spec ≠ [])
    (sel : List (List Nat)) (h : Selection origin spec a.shape sel) :
    ∃ r : Arr α, index uk origin spec (.arr k a) = .ok (squeeze k r) ∧ r.WF ∧ r.shape = sel.map List.length ∧
      ∀ dst, InB r.shape dst → InB a.shape (pickAt sel dst) ∧ r.get? dst = a.get? (pickAt sel dst) := by
  obtain ⟨I, h1, h2, h3, h4⟩ := indexArray_spec h hne
  have hI : ∀ n ∈ I.data, ∃ v, a.data[n]? = some v := by
    intro n hn
    obtain ⟨p, hp⟩ := List.getElem?_of_mem hn
    have hpl : p < size I.shape := by rw [← h2]; exact (List.getElem?_eq_some_iff.1 hp).1
    have hib := unflat_inB hpl
    have e := h4 _ hib
    rw [Arr.get?_of_inB hib, flat_unflat hpl, hp] at e
    simp only [Option.some.injEq] at e
    obtain ⟨_, e2⟩ := pick_spec h _ (by rw [← h3]; exact hib)
    have := flat_lt e2
    rw [← e, ← hw] at this
    exact ⟨_, List.getElem?_eq_getElem this⟩
  have hm : ∃ d, I.data.mapM (boundsAt a.data) = .ok d ∧
      d.map some = I.data.map (fun n => a.data[n]?) := by
    generalize I.data = l at hI
    clear h1 h2 h4
    induction l with
    | nil => exact ⟨[], rfl, rfl⟩
    | cons n l ih =>
      obtain ⟨v, hv⟩ := hI n (by simp)
      obtain ⟨d, hd, hd'⟩ := ih (fun n hn => hI n (by simp [hn]))
      refine ⟨v :: d, ?_, by simp [hv, hd']⟩
      rw [List.mapM_cons, hd]
      simp only [boundsAt, hv]
      rfl
  obtain ⟨d, hd, hd'⟩ := hm
  have hdl : d.length = I.data.length := by simpa using congrArg List.length hd'
  refine ⟨⟨sel.map List.length, d⟩, ?_, by show d.length = _; rw [hdl, h2, h3], rfl, ?_⟩
  · simp only [index, toArrayVal, if_neg hne, h1, bind, Except.bind]
    rw [hd]
    simp only [squeeze]
    generalize (sel.map List.length).filter (· ≠ 1) = s
    match s, d with
    | [], [v] => rfl
    | [], [] => rfl
    | [], _ :: _ :: _ => rfl
    | _ :: _, _ => rfl
  · intro dst hdst
    have hdst' : InB I.shape dst := by rw [h3]; exact hdst
    obtain ⟨_, e2⟩ := pick_spec h dst hdst
    refine ⟨e2, ?_⟩
    rw [Arr.get?_of_inB hdst, Arr.get?_of_inB e2]
    have e := h4 dst hdst'
    rw [Arr.get?_of_inB hdst', h3] at e
    have := congrArg (fun l => l[flat (sel.map List.length) dst]?) hd'
    simp only [List.getElem?_map, e, Option.map_some] at this
    cases hx : d[flat (sel.map List.length) dst]? with
    | none => rw [hx] at this; simp at this
    | some x => rw [hx] at this; simpa using this

/-- C16: everything else is rejected: a specification with a different number of entries than `A` has axes, an entry that is
not made of integers, or one with an index outside of its axis.  So no element outside of `A` is read. -/
theorem C16_rejected (uk : List α → Kind) (origin : Int) (spec : List AxSpec) (k : Kind) (a : Arr α) (hne : spec ≠ [])
    (h : ¬ ∃ sel, Selection origin spec a.shape sel) : index uk origin spec (.arr k a) = .error .err := by
  have : spec2ints origin spec a.shape = .error .err := by
    cases hs : spec2ints origin spec a.shape with
    | ok sel => exact absurd ⟨sel, spec2ints_iff.1 hs⟩ h
    | error e =>
      unfold spec2ints at hs
      split at hs
      · cases hs; rfl
      · congr 1
        have hax : ∀ n sp e, axisInts origin n sp = .error e → e = .err := by
          intro n sp e h
          cases sp with
          | bad => simp [axisInts] at h; exact h.symm
          | all => simp [axisInts] at h
          | ints I =>
            simp only [axisInts] at h
            induction I with
            | nil => cases h
            | cons i I ih =>
              rw [List.mapM_cons] at h
              split at h
              · cases h; rfl
              · simp only [bind, Except.bind] at h
                split at h
                · next he => cases h; exact ih he
                · cases h
        generalize spec.zip a.shape = l at hs
        induction l with
        | nil => cases hs
        | cons p l ih =>
          rw [List.mapM_cons] at hs
          simp only [bind, Except.bind] at hs
          split at hs
          · next he => cases hs; exact hax _ _ _ he
          · split at hs
            · next he => cases hs; exact ih he
            · cases hs
  simp only [index, toArrayVal, if_neg hne, indexArray, this, bind, Except.bind]

/-- C16: when is there a selection? The specification has one entry per axis, each elided or made of indexes between the
index origin and the axis length + origin - 1. -/
theorem C16_valid (origin : Int) (spec : List AxSpec) (shape : List Nat) :
    (∃ sel, Selection origin spec shape sel) ↔
      spec.length = shape.length ∧ ∀ (j : Nat) sp n, spec[j]? = some sp → shape[j]? = some n →
        sp = .all ∨ ∃ I, sp = .ints I ∧ ∀ i ∈ I, origin ≤ i ∧ i < n + origin := by
  induction spec generalizing shape with
  | nil =>
    cases shape with
    | nil => exact ⟨fun _ => ⟨rfl, by simp⟩, fun _ => ⟨[], trivial⟩⟩
    | cons n shape => constructor
                      · rintro ⟨sel, h⟩; cases sel <;> simp [Selection] at h
                      · intro h; simp at h
  | cons sp spec ih =>
    cases shape with
    | nil => constructor
             · rintro ⟨sel, h⟩; simp [Selection] at h
             · intro h; simp at h
    | cons n shape =>
      constructor
      · rintro ⟨sel, h⟩
        cases sel with
        | nil => simp [Selection] at h
        | cons l sel =>
          obtain ⟨h1, h2⟩ := (ih shape).1 ⟨sel, h.2⟩
          refine ⟨by simp [h1], ?_⟩
          intro j sp' n' e1 e2
          cases j with
          | zero =>
            simp only [List.getElem?_cons_zero, Option.some.injEq] at e1 e2
            subst e1; subst e2
            have hp := h.1
            cases sp with
            | bad => exact hp.elim
            | all => exact Or.inl rfl
            | ints I =>
              refine Or.inr ⟨I, rfl, ?_⟩
              intro i hi
              rw [hp.1] at hi
              obtain ⟨p, hpm, rfl⟩ := List.mem_map.1 hi
              have := hp.2 p hpm
              omega
          | succ j => exact h2 j sp' n' (by simpa using e1) (by simpa using e2)
      · intro ⟨h1, h2⟩
        obtain ⟨sel, hs⟩ := (ih shape).2 ⟨by simpa using h1, fun j sp' n' e1 e2 => h2 (j + 1) sp' n' (by simpa using e1) (by simpa using e2)⟩
        rcases h2 0 sp n rfl rfl with rfl | ⟨I, rfl, hI⟩
        · exact ⟨List.range n :: sel, rfl, hs⟩
        · refine ⟨I.map (fun i => (i - origin).toNat) :: sel, ⟨?_, ?_⟩, hs⟩
          · rw [List.map_map]
            conv => lhs; rw [← List.map_id I]
            apply List.map_congr_left
            intro i hi
            have := hI i hi
            simp only [Function.comp_apply, id]
            omega
          · intro p hp
            obtain ⟨i, hi, rfl⟩ := List.mem_map.1 hp
            have := hI i hi
            omega

/-- C16: empty brackets select everything. -/
theorem C16_empty (uk : List α → Kind) (origin : Int) (k : Kind) (a : Arr α) : index uk origin [] (.arr k a) = .ok (.arr k a) := rfl

/-- C16: a vector indexed by integers: the elements at these positions, in order. -/
theorem C16_vector (uk : List α → Kind) (origin : Int) (k : Kind) (v : List α) (P : List Nat) (hP : ∀ p ∈ P, p < v.length) (h1 : P.length ≠ 1) :
    ∃ d, index uk origin [.ints (P.map (fun (p : Nat) => (p : Int) + origin))] (.arr k ⟨[v.length], v⟩) = .ok (.arr k ⟨[P.length], d⟩) ∧
      d.map some = P.map (fun p => v[p]?) := by
  obtain ⟨r, h2, h3, h4, h5⟩ := C16_index uk origin [.ints (P.map (fun (p : Nat) => (p : Int) + origin))] k ⟨[v.length], v⟩ (by simp [Arr.WF, size]) (by simp)
    [P] ⟨⟨rfl, hP⟩, trivial⟩
  have hs : r.shape = [P.length] := h4
  have hf : r.shape.filter (· ≠ 1) = [P.length] := by rw [hs]; simp [h1]
  refine ⟨r.data, ?_, ?_⟩
  · rw [h2]; simp only [squeeze, hf]
  · have hl : r.data.length = P.length := by rw [h3, hs]; simp [size]
    apply List.ext_getElem?
    intro i
    rw [List.getElem?_map, List.getElem?_map]
    by_cases hi : i < P.length
    · have hib : InB r.shape [i] := by rw [hs]; exact ⟨hi, trivial⟩
      obtain ⟨e1, e2⟩ := h5 [i] hib
      rw [Arr.get?_of_inB hib, Arr.get?_of_inB e1, hs] at e2
      simp only [flat, pickAt, List.zip_cons_cons, List.zip_nil_left, List.map_cons, List.map_nil, size, Nat.mul_one, Nat.add_zero, getD_eq_getElem P 0 hi] at e2
      rw [e2, List.getElem?_eq_getElem hi]
      have := hP _ (List.getElem_mem hi)
      simp [this]
    · rw [List.getElem?_eq_none (by omega), List.getElem?_eq_none (by omega)]; rfl

/-! ### Concrete cases -/

/-- `A←2 3⍴⍳6`: `A[2;]` is `4 5 6`, `A[2;3]` is 6, `A[2 1;1 3]`, an index out of range, a wrong number of axes; `⎕IO←0`. -/
example : index (fun _ => .int) 1 [.ints [2], .all] (.arr .int ⟨[2, 3], [1, 2, 3, 4, 5, 6]⟩) = .ok (.arr .int ⟨[3], [4, 5, 6]⟩) := by decide
example : index (fun _ => .int) 1 [.ints [2], .ints [3]] (.arr .int ⟨[2, 3], [1, 2, 3, 4, 5, 6]⟩) = .ok (.scalar 6) := by decide
example : index (fun _ => .int) 1 [.ints [2, 1], .ints [1, 3]] (.arr .int ⟨[2, 3], [1, 2, 3, 4, 5, 6]⟩) = .ok (.arr .int ⟨[2, 2], [4, 6, 1, 3]⟩) := by decide
example : index (fun _ => .int) 0 [.ints [1, 0], .ints [0, 2]] (.arr .int ⟨[2, 3], [1, 2, 3, 4, 5, 6]⟩) = .ok (.arr .int ⟨[2, 2], [4, 6, 1, 3]⟩) := by decide
example : index (fun _ => .int) 1 [.ints [2], .ints [4]] (.arr .int ⟨[2, 3], [1, 2, 3, 4, 5, 6]⟩) = (.error .err : Res _) := by decide
example : index (fun _ => .int) 1 [.ints [2]] (.arr .int ⟨[2, 3], [1, 2, 3, 4, 5, 6]⟩) = (.error .err : Res _) := by decide
/-- the hypotheses of `C16_index` -/
example : Selection 1 [.ints [2, 1], .all] [2, 3] [[1, 0], [0, 1, 2]] := ⟨⟨rfl, by decide⟩, rfl, trivial⟩

end Iv

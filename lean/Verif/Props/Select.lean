import Verif.Model.Select
import Verif.Props.Assign
import Verif.Props.Take
import Verif.Props.Reverse
import Verif.Props.Rotate
import Verif.Props.Transpose
import Verif.Props.Replicate
import Verif.Props.Reshape
/-
C18 selective assignment.
-/
namespace Iv
variable {α : Type} {m : Type → Type} [Monad m] [LawfulMonad m]

/-- Specification: the function `F` (its first value argument is the fill) returns for every array of shape `s`, whatever its
elements, an array of shape `s'`, whose element at `j` is the argument's element at `p` when `pos j = some p`, and the fill when
`pos j = none`. -/
def SelectsBy (F : (β : Type) → β → Val β → Res (Val β)) (s s' : List Nat) (pos : List Nat → Option (List Nat)) : Prop :=
  ∀ (β : Type) (z : β) (k : Kind) (b : Arr β), b.WF → b.shape = s →
    ∃ k' r, F β z (.arr k b) = .ok (.arr k' r) ∧ r.WF ∧ r.shape = s' ∧
      ∀ j, InB s' j → (pos j = none → r.get? j = some z) ∧ ∀ p, pos j = some p → InB s p ∧ r.get? j = b.get? p

/-- Specification: `a'` is `a` after the elements of `R` are written to the positions `pos j`, in row-major order of the `j`
in the shape `s'` (combined with the old element by the modifier `g`); no other element changes. -/
def Written (g : Option (α → α → α)) (s' : List Nat) (pos : List Nat → Option (List Nat)) (R : Val α) (a a' : Arr α) : Prop :=
  a'.WF ∧ a'.shape = a.shape ∧
  (∀ i, InB a.shape i → (∀ j, InB s' j → pos j ≠ some i) → a'.get? i = a.get? i) ∧
  ∀ j p v, InB s' j → pos j = some p → (assignedValues (size s') R)[flat s' j]? = some v →
    (∀ j', InB s' j' → flat s' j < flat s' j' → pos j' ≠ some p) →
    (g = none ∨ ∀ j', InB s' j' → j' ≠ j → pos j' ≠ some p) →
    a'.get? p = (a.get? p).map (fun old => upd1 g old v)

/-- the index of a selected position in the index array of a selection -/
def posInt (s : List Nat) : Option (List Nat) → Int
  | none => -1
  | some p => (flat s p : Int)

theorem flat_inj {s i j : List Nat} (hi : InB s i) (hj : InB s j) (h : flat s i = flat s j) : i = j := by
  rw [← unflat_flat hi, ← unflat_flat hj, h]

theorem written_of_idx (fits : Kind → α → Bool) (g : Option (α → α → α)) (k : Kind) (a : Arr α) (hw : a.WF) (s' : List Nat)
    (pos : List Nat → Option (List Nat)) (hpos : ∀ j p, InB s' j → pos j = some p → InB a.shape p)
    (d : List Int) (hd : d.length = size s') (hdj : ∀ j, InB s' j → d[flat s' j]? = some (posInt a.shape (pos j)))
    (R : Val α) (hR : Conforms s' R) (hRw : ∀ kb b, R = .arr kb b → b.WF) :
    ∃ k' a', assignValue (m := m) fits (pureMod g) (.arr k a) (s', d) R = pure (.arr k' a') ∧ Written g s' pos R a a' := by
  have hlen := conforms_len (n := d.length) hd hR hRw
  have hidx : ∀ i ∈ d, i = -1 ∨ (0 ≤ i ∧ i < a.data.length) := by
    intro i hi
    obtain ⟨q, hq⟩ := List.getElem?_of_mem hi
    have hql : q < size s' := by rw [← hd]; exact (List.getElem?_eq_some_iff.1 hq).1
    have e := hdj _ (unflat_inB hql)
    rw [flat_unflat hql, hq] at e
    simp only [Option.some.injEq] at e
    cases hp : pos (unflat s' q) with
    | none => left; rw [e, hp]; rfl
    | some p =>
      right
      rw [e, hp]
      have := flat_lt (hpos _ p (unflat_inB hql) hp)
      simp only [posInt, hw]
      unfold Arr.WF at hw
      omega
  obtain ⟨k', a', e1, e2, e3, e4⟩ := C17_flat (m := m) fits g k a hw (s', d) R hidx hR hlen
  refine ⟨k', a', e1, e2, e3, ?_, ?_⟩
  · intro i hi hno
    rw [e4 i hi]
    have hfun : afterUpdates (upd1 g) (d.zip (assignedValues d.length R)) (flat a.shape i) = id := by
      funext old
      apply afterUpdates_not
      intro q hq
      have hq1 := (List.of_mem_zip (a := q.1) (b := q.2) hq).1
      obtain ⟨n, hn⟩ := List.getElem?_of_mem hq1
      have hql : n < size s' := by rw [← hd]; exact (List.getElem?_eq_some_iff.1 hn).1
      have e := hdj _ (unflat_inB hql)
      rw [flat_unflat hql, hn] at e
      simp only [Option.some.injEq] at e
      intro hc
      rw [e] at hc
      cases hp : pos (unflat s' n) with
      | none => rw [hp] at hc; simp only [posInt] at hc; omega
      | some p =>
        rw [hp] at hc
        simp only [posInt, Int.natCast_inj] at hc
        have := flat_inj (hpos _ p (unflat_inB hql) hp) hi hc
        subst this
        exact hno _ (unflat_inB hql) hp
    simp only [hfun, Option.map_id, id]
  · intro j p v hj hp hv hlast hoth
    have hpi := hpos j p hj hp
    rw [e4 p hpi]
    congr 1
    funext old
    have hzip : ∀ n q, (d.zip (assignedValues d.length R))[n]? = some q → n < size s' ∧ q.1 = posInt a.shape (pos (unflat s' n)) := by
      intro n q hn
      have hn1 := (zip_getElem?_some hn).1
      have hql : n < size s' := by rw [← hd]; exact (List.getElem?_eq_some_iff.1 hn1).1
      have e := hdj _ (unflat_inB hql)
      rw [flat_unflat hql, hn1] at e
      simp only [Option.some.injEq] at e
      exact ⟨hql, e⟩
    have hne : ∀ n q, (d.zip (assignedValues d.length R))[n]? = some q → pos (unflat s' n) ≠ some p → q.1 ≠ (flat a.shape p : Int) := by
      intro n q hn hnp hc
      obtain ⟨hql, e⟩ := hzip n q hn
      rw [e] at hc
      cases hp' : pos (unflat s' n) with
      | none => rw [hp'] at hc; simp only [posInt] at hc; omega
      | some p' =>
        rw [hp'] at hc
        simp only [posInt, Int.natCast_inj] at hc
        have := flat_inj (hpos _ p' (unflat_inB hql) hp') hpi hc
        subst this
        exact hnp hp'
    apply afterUpdates_last g _ (flat s' j)
    · have h1 := hdj j hj
      rw [hp] at h1
      rw [List.getElem?_zip_eq_some]
      exact ⟨h1, by rw [hd]; exact hv⟩
    · intro n q hn hq
      obtain ⟨hql, _⟩ := hzip n q hq
      exact hne n q hq (hlast _ (unflat_inB hql) (by rw [flat_unflat hql]; exact hn))
    · rcases hoth with h | h
      · exact Or.inl h
      · right
        intro n q hn hq
        obtain ⟨hql, _⟩ := hzip n q hq
        refine hne n q hq (h _ (unflat_inB hql) ?_)
        intro hc
        rw [← hc, flat_unflat hql] at hn
        omega

theorem countArr_wf (k : Nat) (a : Arr α) (hw : a.WF) : (countArr k a).WF := by
  unfold Arr.WF countArr at *; simpa using hw

theorem countArr_get (k : Nat) (a : Arr α) (hw : a.WF) {p : List Nat} (hp : InB a.shape p) :
    (countArr k a).get? p = some ((flat a.shape p + k : Nat) : Int) := by
  have hlt := flat_lt hp
  rw [Arr.get?_of_inB (a := countArr k a) hp]
  unfold Arr.WF at hw
  simp [countArr, List.getElem?_map, List.getElem?_range, hw, hlt]

theorem SelectsBy.inB {F : (β : Type) → β → Val β → Res (Val β)} {s s' : List Nat} {pos : List Nat → Option (List Nat)}
    (hF : SelectsBy F s s' pos) : ∀ j p, InB s' j → pos j = some p → InB s p := by
  intro j p hj hp
  obtain ⟨_, r, _, _, _, h⟩ := hF Unit () .mixed ⟨s, List.replicate (size s) ()⟩ (by simp [Arr.WF]) rfl
  exact ((h j hj).2 p hp).1

/-- C18, functions without fill (`⌽ ⊖ ⍉ ⍴` and rotations), `(F A)←R` with or without a modifier: the elements of `R` are written to the
positions of `A` that `F` selects, and nothing else changes. -/
theorem C18_selection (F : (β : Type) → β → Val β → Res (Val β)) (fits : Kind → α → Bool) (g : Option (α → α → α)) (k : Kind)
    (a : Arr α) (hw : a.WF) (s' : List Nat) (pos : List Nat → Option (List Nat)) (hF : SelectsBy F a.shape s' pos)
    (hfill : ∀ j, InB s' j → pos j ≠ none) (R : Val α) (hR : Conforms s' R) (hRw : ∀ kb b, R = .arr kb b → b.WF) :
    ∃ k' a', (do let idx ← ofRes (selection (F Int 0) (.arr k a))
                 assignValue (m := m) fits (pureMod g) (.arr k a) idx R) = pure (.arr k' a') ∧ Written g s' pos R a a' := by
  obtain ⟨k1, r, h1, h2, h3, h4⟩ := hF Int 0 .int (countArr 0 a) (countArr_wf 0 a hw) rfl
  have e : selection (F Int 0) (.arr k a) = .ok (s', r.data) := by
    simp only [selection, h1, bind, Except.bind, toIndexArr, h3]
  rw [e, ofRes_ok, pure_bind]
  refine written_of_idx (m := m) fits g k a hw s' pos hF.inB r.data (by rw [h2, h3]) ?_ R hR hRw
  intro j hj
  have := h4 j hj
  cases hp : pos j with
  | none => exact absurd hp (hfill j hj)
  | some p =>
    obtain ⟨e1, e2⟩ := this.2 p hp
    rw [countArr_get 0 a hw e1, Arr.get?_of_inB (by rw [h3]; exact hj), h3] at e2
    rw [e2]; rfl

theorem sel1_get {F : (β : Type) → β → Val β → Res (Val β)} {a : Arr α} (hw : a.WF) {s' : List Nat} {pos : List Nat → Option (List Nat)}
    (hF : SelectsBy F a.shape s' pos) : ∃ k1 r, F Int 0 (.arr .int (countArr 1 a)) = .ok (.arr k1 r) ∧ r.shape = s' ∧
      (r.data.map (· - 1)).length = size s' ∧ ∀ j, InB s' j → (r.data.map (· - 1))[flat s' j]? = some (posInt a.shape (pos j)) := by
  obtain ⟨k1, r, h1, h2, h3, h4⟩ := hF Int 0 .int (countArr 1 a) (countArr_wf 1 a hw) rfl
  refine ⟨k1, r, h1, h3, by rw [List.length_map, h2, h3], ?_⟩
  intro j hj
  have := h4 j hj
  rw [Arr.get?_of_inB (by rw [h3]; exact hj), h3] at this
  rw [List.getElem?_map]
  cases hp : pos j with
  | none => rw [this.1 hp]; rfl
  | some p =>
    obtain ⟨e1, e2⟩ := this.2 p hp
    rw [countArr_get 1 a hw e1] at e2
    rw [e2]
    simp [posInt]

/-- C18, `/` and `\` (and functions with an axis specification): as before, and the fill positions of the result are skipped. -/
theorem C18_select_fill (F : (β : Type) → β → Val β → Res (Val β)) (fits : Kind → α → Bool) (g : Option (α → α → α)) (k : Kind)
    (a : Arr α) (hw : a.WF) (s' : List Nat) (pos : List Nat → Option (List Nat)) (hF : SelectsBy F a.shape s' pos)
    (R : Val α) (hR : Conforms s' R) (hRw : ∀ kb b, R = .arr kb b → b.WF) :
    ∃ k' a', (do let idx ← ofRes (selectSimple (F Int 0) (.arr k a))
                 assignValue (m := m) fits (pureMod g) (.arr k a) idx R) = pure (.arr k' a') ∧ Written g s' pos R a a' := by
  obtain ⟨k1, r, h1, h3, h4, h5⟩ := sel1_get hw hF
  have e : selectSimple (F Int 0) (.arr k a) = .ok (s', r.data.map (· - 1)) := by
    simp only [selectSimple, h1, bind, Except.bind, toIndexArr, h3]; rfl
  rw [e, ofRes_ok, pure_bind]
  exact written_of_idx (m := m) fits g k a hw s' pos hF.inB _ h4 h5 R hR hRw

/-- C18, take and drop without axis: as before when the result has no fill position … -/
theorem C18_takedrop (F : (β : Type) → β → Val β → Res (Val β)) (fits : Kind → α → Bool) (g : Option (α → α → α)) (k : Kind)
    (a : Arr α) (hw : a.WF) (s' : List Nat) (pos : List Nat → Option (List Nat)) (hF : SelectsBy F a.shape s' pos)
    (hfill : ∀ j, InB s' j → pos j ≠ none) (R : Val α) (hR : Conforms s' R) (hRw : ∀ kb b, R = .arr kb b → b.WF) :
    ∃ k' a', (do let idx ← ofRes (takeDropSelection (F Int 0) (.arr k a))
                 assignValue (m := m) fits (pureMod g) (.arr k a) idx R) = pure (.arr k' a') ∧ Written g s' pos R a a' := by
  obtain ⟨k1, r, h1, h3, h4, h5⟩ := sel1_get hw hF
  have hno : ¬ (r.data.any (fun i => i - 1 < 0)) = true := by
    intro h
    obtain ⟨x, hx, hx0⟩ := List.any_eq_true.1 h
    obtain ⟨q, hq⟩ := List.getElem?_of_mem hx
    have hql : q < size s' := by rw [← h4, List.length_map]; exact (List.getElem?_eq_some_iff.1 hq).1
    have e := h5 _ (unflat_inB hql)
    rw [flat_unflat hql, List.getElem?_map, hq] at e
    simp only [Option.map_some, Option.some.injEq] at e
    cases hp : pos (unflat s' q) with
    | none => exact hfill _ (unflat_inB hql) hp
    | some p => rw [hp] at e; simp only [posInt] at e; simp at hx0; omega
  have e : takeDropSelection (F Int 0) (.arr k a) = .ok (s', r.data.map (· - 1)) := by
    simp only [takeDropSelection, h1, bind, Except.bind, toIndexArr, if_neg hno, h3]; rfl
  rw [e, ofRes_ok, pure_bind]
  exact written_of_idx (m := m) fits g k a hw s' pos hF.inB _ h4 h5 R hR hRw

/-- … and with a fill position it is rejected (`A` stays as it is). -/
theorem C18_takedrop_fill (F : (β : Type) → β → Val β → Res (Val β)) (k : Kind) (a : Arr α) (hw : a.WF) (s' : List Nat)
    (pos : List Nat → Option (List Nat)) (hF : SelectsBy F a.shape s' pos) (j : List Nat) (hj : InB s' j) (hfill : pos j = none) :
    takeDropSelection (F Int 0) (.arr k a) = .error .err := by
  obtain ⟨k1, r, h1, h3, h4, h5⟩ := sel1_get hw hF
  have hyes : (r.data.any (fun i => i - 1 < 0)) = true := by
    have := h5 j hj
    rw [hfill, List.getElem?_map] at this
    cases hq : r.data[flat s' j]? with
    | none => rw [hq] at this; simp at this
    | some x =>
      rw [hq] at this
      simp only [Option.map_some, Option.some.injEq, posInt] at this
      exact List.any_eq_true.2 ⟨x, List.mem_of_getElem? hq, by simp; omega⟩
  simp only [takeDropSelection, h1, bind, Except.bind, toIndexArr, if_pos hyes]

/-- C18: after an assignment that selects every position at most once, without fill and modifier, `F A` has the elements of
`R` (repeated when `R` is a single value). -/
theorem C18_read_back (F : (β : Type) → β → Val β → Res (Val β)) (a a' : Arr α) (s' : List Nat)
    (pos : List Nat → Option (List Nat)) (hF : SelectsBy F a.shape s' pos) (hw : a.WF)
    (hfill : ∀ j, InB s' j → pos j ≠ none) (hinj : ∀ j j', InB s' j → InB s' j' → pos j = pos j' → j = j')
    (R : Val α) (hR : Conforms s' R) (hRw : ∀ kb b, R = .arr kb b → b.WF) (h : Written none s' pos R a a') (z : α) (k' : Kind) :
    ∃ k'', F α z (.arr k' a') = .ok (.arr k'' ⟨s', assignedValues (size s') R⟩) := by
  obtain ⟨w1, w2, _, w4⟩ := h
  obtain ⟨k'', r, e1, e2, e3, e4⟩ := hF α z k' a' w1 w2
  refine ⟨k'', ?_⟩
  rw [e1]
  congr 2
  have hlen := conforms_len (n := size s') rfl hR hRw
  refine Arr.ext_get (b := ⟨s', assignedValues (size s') R⟩) e2 hlen e3 ?_
  intro j hj
  rw [e3] at hj
  cases hp : pos j with
  | none => exact absurd hp (hfill j hj)
  | some p =>
    obtain ⟨q1, q2⟩ := (e4 j hj).2 p hp
    rw [q2]
    rw [Arr.get?_of_inB (a := ⟨s', assignedValues (size s') R⟩) hj]
    have hl : flat s' j < (assignedValues (size s') R).length := by rw [hlen]; exact flat_lt hj
    have hv := List.getElem?_eq_getElem hl
    rw [w4 j p _ hj hp hv (by
      intro j' hj' hlt hc
      have := hinj j j' hj hj' (by rw [hp, hc])
      subst this; omega) (Or.inl rfl)]
    have hs := Arr.get?_isSome hw q1
    cases ha : a.get? p with
    | none => rw [ha] at hs; simp at hs
    | some x => simp [upd1]


/-- reverse: the position read for `j` mirrors component `k` -/
theorem selects_reverse (s : List Nat) (k : Nat) (axis : Int) (hk : k < s.length) (hax : axis = k ∨ axis = (k : Int) - s.length) :
    SelectsBy (fun β _ R => reverse R axis) s s (fun j => some (j.set k (s.getD k 0 - 1 - j.getD k 0))) := by
  intro β z kd b hw hs
  subst hs
  obtain ⟨r, h1, h2, h3, h4⟩ := C08_reverse b k hw hk
  have hn : normAxis b.shape.length axis = .ok k := by
    have e : (if axis < 0 then (b.shape.length : Int) + axis else axis) = k := by
      rcases hax with rfl | rfl
      · rw [if_neg (by omega)]
      · rw [if_pos (by omega)]; omega
    simp only [normAxis, e]
    rw [if_neg (by omega)]; simp
  refine ⟨kd, r, ?_, h2, h3, ?_⟩
  · simp only [reverse, hn, bind, Except.bind, h1]; rfl
  · intro j hj
    refine ⟨by simp, ?_⟩
    intro p hp
    simp only [Option.some.injEq] at hp
    subst hp
    exact ⟨(h4 j hj).2, (h4 j hj).1⟩

theorem mirror_inj (s : List Nat) (k : Nat) (hk : k < s.length) (j j' : List Nat) (hj : InB s j) (hj' : InB s j')
    (h : some (j.set k (s.getD k 0 - 1 - j.getD k 0)) = some (j'.set k (s.getD k 0 - 1 - j'.getD k 0))) : j = j' := by
  simp only [Option.some.injEq] at h
  have hl := hj.length_eq
  have hl' := hj'.length_eq
  apply List.ext_getElem?
  intro i
  have hi := congrArg (fun l => l[i]?) h
  simp only [List.getElem?_set] at hi
  by_cases hik : k = i
  · subst hik
    have h1 := hj.getD_lt hk
    have h2 := hj'.getD_lt hk
    rw [if_pos rfl, if_pos rfl, if_pos (by omega), if_pos (by omega)] at hi
    simp only [Option.some.injEq] at hi
    rw [List.getElem?_eq_getElem (by omega), List.getElem?_eq_getElem (by omega), ← getD_eq_getElem j 0 (by omega), ← getD_eq_getElem j' 0 (by omega)]
    congr 1; omega
  · rwa [if_neg hik, if_neg hik] at hi

/-- From an exact description of what `F` selects to the assignment `(F A)←R` and reading it back. -/
theorem select_and_read (F : (β : Type) → β → Val β → Res (Val β)) (sel : Val α → Res (List Nat × List Int)) (z : α) (fits : Kind → α → Bool)
    (kd : Kind) (a : Arr α) (hw : a.WF) (s' : List Nat) (pos : List Nat → Option (List Nat)) (hF : SelectsBy F a.shape s' pos)
    (hsel : ∃ k' a', (do let idx ← ofRes (sel (.arr kd a)); assignValue (m := m) fits (pureMod none) (.arr kd a) idx R) = pure (.arr k' a') ∧
      Written none s' pos R a a')
    (hfill : ∀ j, InB s' j → pos j ≠ none) (hinj : ∀ j j', InB s' j → InB s' j' → pos j = pos j' → j = j')
    (hR : Conforms s' R) (hRw : ∀ kb b, R = .arr kb b → b.WF) :
    ∃ k' a', (do let idx ← ofRes (sel (.arr kd a)); assignValue (m := m) fits none (.arr kd a) idx R) = pure (.arr k' a') ∧
      Written none s' pos R a a' ∧ ∃ k'', F α z (.arr k' a') = .ok (.arr k'' ⟨s', assignedValues (size s') R⟩) := by
  obtain ⟨k', a', h1, h2⟩ := hsel
  exact ⟨k', a', h1, h2, C18_read_back F a a' s' pos hF hw hfill hinj R hR hRw h2 z k'⟩

/-- C18: `(⌽A)←R`, `(⊖A)←R` (any axis `k`): the elements of `R` go to the mirrored positions; then `⌽A` is `R`. -/
theorem C18_reverse (z : α) (fits : Kind → α → Bool) (kd : Kind) (a : Arr α) (hw : a.WF) (k : Nat) (axis : Int) (hk : k < a.shape.length)
    (hax : axis = k ∨ axis = (k : Int) - a.shape.length) (R : Val α) (hR : Conforms a.shape R) (hRw : ∀ kb b, R = .arr kb b → b.WF) :
    ∃ k' a', (do let idx ← ofRes (selection (fun R => reverse R axis) (.arr kd a))
                 assignValue (m := m) fits none (.arr kd a) idx R) = pure (.arr k' a') ∧
      Written none a.shape (fun j => some (j.set k (a.shape.getD k 0 - 1 - j.getD k 0))) R a a' ∧
      ∃ k'', reverse (.arr k' a') axis = .ok (.arr k'' ⟨a.shape, assignedValues (size a.shape) R⟩) := by
  have hF := selects_reverse a.shape k axis hk hax
  exact select_and_read _ _ z fits kd a hw a.shape _ hF (C18_selection (m := m) _ fits none kd a hw a.shape _ hF (by simp) R hR hRw)
    (by simp) (fun j j' hj hj' h => mirror_inj a.shape k hk j j' hj hj' h) hR hRw


/-- rotate of an array of rank ≥ 2: the position read for `j` shifts component `k` by the count for the other components -/
theorem selects_rotate (L : Arr Int) (hLw : L.WF) (s : List Nat) (k : Nat) (hr : 2 ≤ s.length) (hk : k < s.length) (hL : L.shape = s.eraseIdx k) :
    SelectsBy (fun β _ R => rotateVal L R (k : Int)) s s
      (fun j => some (j.set k ((((j.getD k 0 : Nat) : Int) + (L.get? (j.eraseIdx k)).getD 0) % ((s.getD k 0 : Nat) : Int)).toNat)) := by
  intro β z kd b hw hs
  subst hs
  obtain ⟨r, h1, h2, h3, h4⟩ := C09_rotate L b k hw hLw hr hk hL
  refine ⟨kd, r, ?_, h2, h3, ?_⟩
  · simp only [rotateVal, h1, bind, Except.bind]; rfl
  · intro j hj
    refine ⟨by simp, ?_⟩
    intro p hp
    simp only [Option.some.injEq] at hp
    subst hp
    obtain ⟨n, e1, e2, e3⟩ := h4 j hj
    rw [e1]
    exact ⟨e3, e2⟩

theorem shift_inj (L : Arr Int) (s : List Nat) (k : Nat) (hk : k < s.length) (j j' : List Nat) (hj : InB s j) (hj' : InB s j')
    (h : some (j.set k ((((j.getD k 0 : Nat) : Int) + (L.get? (j.eraseIdx k)).getD 0) % ((s.getD k 0 : Nat) : Int)).toNat) =
      some (j'.set k ((((j'.getD k 0 : Nat) : Int) + (L.get? (j'.eraseIdx k)).getD 0) % ((s.getD k 0 : Nat) : Int)).toNat)) : j = j' := by
  simp only [Option.some.injEq] at h
  have hl := hj.length_eq
  have hl' := hj'.length_eq
  have her : j.eraseIdx k = j'.eraseIdx k := by
    have := congrArg (fun l => l.eraseIdx k) h
    simpa only [List.eraseIdx_set_eq] using this
  have hi := congrArg (fun l => l[k]?) h
  simp only [List.getElem?_set] at hi
  rw [if_true, if_true, if_pos (by omega), if_pos (by omega), her] at hi
  simp only [Option.some.injEq] at hi
  generalize (L.get? (j'.eraseIdx k)).getD 0 = n at hi
  have h1 := hj.getD_lt hk
  have h2 := hj'.getD_lt hk
  have hk' : j.getD k 0 = j'.getD k 0 := by
    generalize j.getD k 0 = x at *
    generalize j'.getD k 0 = y at *
    generalize s.getD k 0 = N at *
    have p1 := Int.emod_nonneg ((x : Int) + n) (show (N : Int) ≠ 0 by omega)
    have p2 := Int.emod_nonneg ((y : Int) + n) (show (N : Int) ≠ 0 by omega)
    have e : ((x : Int) + n) % N = ((y : Int) + n) % N := by omega
    have e2 : ((x : Int) - y) % N = 0 := by
      have := Int.emod_emod_of_dvd ((x : Int) + n - (y + n)) (Int.dvd_refl (N : Int))
      rw [show (x : Int) - y = (x + n) - (y + n) by omega, Int.sub_emod, e, Int.sub_self, Int.zero_emod]
    obtain ⟨c, hc⟩ := Int.dvd_of_emod_eq_zero e2
    have hc0 : c = 0 := by
      rcases Int.lt_trichotomy c 0 with h | h | h
      · have : (N : Int) * c ≤ N * (-1) := Int.mul_le_mul_of_nonneg_left (by omega) (by omega)
        omega
      · exact h
      · have : (N : Int) * 1 ≤ N * c := Int.mul_le_mul_of_nonneg_left (by omega) (by omega)
        omega
    subst hc0; omega
  apply List.ext_getElem?
  intro i
  have hi := congrArg (fun l => l[i]?) h
  simp only [List.getElem?_set] at hi
  by_cases hik : k = i
  · subst hik
    rw [List.getElem?_eq_getElem (by omega), List.getElem?_eq_getElem (by omega), ← getD_eq_getElem j 0 (by omega), ← getD_eq_getElem j' 0 (by omega), hk']
  · rwa [if_neg hik, if_neg hik] at hi

/-- C18: `(L⌽[k]A)←R` for arrays of rank ≥ 2. -/
theorem C18_rotate (z : α) (fits : Kind → α → Bool) (kd : Kind) (a : Arr α) (hw : a.WF) (L : Arr Int) (hLw : L.WF) (k : Nat)
    (hr : 2 ≤ a.shape.length) (hk : k < a.shape.length) (hL : L.shape = a.shape.eraseIdx k)
    (R : Val α) (hR : Conforms a.shape R) (hRw : ∀ kb b, R = .arr kb b → b.WF) :
    ∃ k' a', (do let idx ← ofRes (selection (fun R => rotateVal L R (k : Int)) (.arr kd a))
                 assignValue (m := m) fits none (.arr kd a) idx R) = pure (.arr k' a') ∧
      Written none a.shape (fun j => some (j.set k ((((j.getD k 0 : Nat) : Int) + (L.get? (j.eraseIdx k)).getD 0) % ((a.shape.getD k 0 : Nat) : Int)).toNat)) R a a' ∧
      ∃ k'', rotateVal L (.arr k' a') (k : Int) = .ok (.arr k'' ⟨a.shape, assignedValues (size a.shape) R⟩) := by
  have hF := selects_rotate L hLw a.shape k hr hk hL
  exact select_and_read _ _ z fits kd a hw a.shape _ hF (C18_selection (m := m) _ fits none kd a hw a.shape _ hF (by simp) R hR hRw)
    (by simp) (fun j j' hj hj' h => shift_inj L a.shape k hk j j' hj hj' h) hR hRw

/-- rotation of a vector -/
theorem selects_rotate_vector (n : Int) (len : Nat) (axis : Int) :
    SelectsBy (fun β _ R => rotateVal ⟨[1], [n]⟩ R axis) [len] [len]
      (fun j => some [(((j.getD 0 0 : Nat) : Int) + n) % (len : Int) |>.toNat]) := by
  intro β z kd b hw hs
  obtain ⟨s, d⟩ := b
  simp only at hs; subst hs
  have hlen : d.length = len := by simpa [Arr.WF, size] using hw
  subst hlen
  obtain ⟨r, h1, h2, h3, h4⟩ := C09_rotate_vector d n axis
  refine ⟨kd, r, ?_, h3, h2, ?_⟩
  · simp only [rotateVal, h1, bind, Except.bind]; rfl
  · intro j hj
    refine ⟨by simp, ?_⟩
    intro p hp
    simp only [Option.some.injEq] at hp
    subst hp
    match j, hj with
    | [i], hj =>
      have hi : i < d.length := by simpa [InB] using hj
      have hp : (((i : Int) + n) % (d.length : Int)).toNat < d.length := by
        have := Int.emod_nonneg ((i : Int) + n) (show (d.length : Int) ≠ 0 by omega)
        have := Int.emod_lt_of_pos ((i : Int) + n) (show (0 : Int) < d.length by omega)
        omega
      refine ⟨by simpa [InB] using hp, ?_⟩
      rw [get?_vec_lt h2 hi, get?_vec_lt rfl (by simpa using hp), h4 i hi]
      rfl

/-- C18: `(n⌽V)←R` for a vector. -/
theorem C18_rotate_vector (z : α) (fits : Kind → α → Bool) (kd : Kind) (v : List α) (n axis : Int)
    (R : Val α) (hR : Conforms [v.length] R) (hRw : ∀ kb b, R = .arr kb b → b.WF) :
    ∃ k' a', (do let idx ← ofRes (selection (fun R => rotateVal ⟨[1], [n]⟩ R axis) (.arr kd ⟨[v.length], v⟩))
                 assignValue (m := m) fits none (.arr kd ⟨[v.length], v⟩) idx R) = pure (.arr k' a') ∧
      Written none [v.length] (fun j => some [(((j.getD 0 0 : Nat) : Int) + n) % (v.length : Int) |>.toNat]) R ⟨[v.length], v⟩ a' ∧
      ∃ k'', rotateVal ⟨[1], [n]⟩ (.arr k' a') axis = .ok (.arr k'' ⟨[v.length], assignedValues (size [v.length]) R⟩) := by
  have hF := selects_rotate_vector n v.length axis
  have hw : (⟨[v.length], v⟩ : Arr α).WF := by simp [Arr.WF, size]
  refine select_and_read _ _ z fits kd ⟨[v.length], v⟩ hw [v.length] _ hF (C18_selection (m := m) _ fits none kd _ hw [v.length] _ hF (by simp) R hR hRw)
    (by simp) ?_ hR hRw
  intro j j' hj hj' h
  match j, j', hj, hj' with
  | [x], [y], hj, hj' =>
    refine shift_inj (⟨[], [n]⟩ : Arr Int) [v.length] 0 (by simp) [x] [y] hj hj' ?_
    simpa [Arr.get?, InB, flat] using h

/-- transpose (`none`) and dyadic transpose -/
theorem selects_transpose (origin : Int) (ho : origin = 0 ∨ origin = 1) (s : List Nat) (hs : s ≠ []) :
    SelectsBy (fun β _ R => transpose origin none R) s s.reverse (fun j => some j.reverse) := by
  intro β z kd b hw hb
  subst hb
  obtain ⟨r, h1, h2, h3, h4⟩ := C10_transpose origin ho kd b hw hs
  refine ⟨kd, r, h1, h2, h3, ?_⟩
  intro j hj
  refine ⟨by simp, ?_⟩
  intro p hp
  simp only [Option.some.injEq] at hp
  subst hp
  exact h4 j (by rw [h3]; exact hj)

/-- C18: `(⍉A)←R`. -/
theorem C18_transpose (z : α) (fits : Kind → α → Bool) (kd : Kind) (a : Arr α) (hw : a.WF) (hs : a.shape ≠ []) (origin : Int)
    (ho : origin = 0 ∨ origin = 1) (R : Val α) (hR : Conforms a.shape.reverse R) (hRw : ∀ kb b, R = .arr kb b → b.WF) :
    ∃ k' a', (do let idx ← ofRes (selection (fun R => transpose origin none R) (.arr kd a))
                 assignValue (m := m) fits none (.arr kd a) idx R) = pure (.arr k' a') ∧
      Written none a.shape.reverse (fun j => some j.reverse) R a a' ∧
      ∃ k'', transpose origin none (.arr k' a') = .ok (.arr k'' ⟨a.shape.reverse, assignedValues (size a.shape.reverse) R⟩) := by
  have hF := selects_transpose origin ho a.shape hs
  exact select_and_read _ _ z fits kd a hw a.shape.reverse _ hF (C18_selection (m := m) _ fits none kd a hw a.shape.reverse _ hF (by simp) R hR hRw)
    (by simp) (fun j j' _ _ h => by simpa using h) hR hRw

/-- C18: `(L⍉A)←R`, also for diagonals: the element of `R` at `j` goes to the position whose component `a` is `j[L[a]]`. -/
theorem C18_dyadic_transpose (z : α) (fits : Kind → α → Bool) (kd : Kind) (a : Arr α) (hw : a.WF) (hs : a.shape ≠ []) (origin : Int)
    (ho : origin = 0 ∨ origin = 1) (L : List Int) (hv : ValidAxes origin a.shape.length L) :
    ∃ s', (∀ i : Nat, i < s'.length ↔ (i : Int) + origin ∈ L) ∧
      SelectsBy (fun β _ R => transpose origin (some L) R) a.shape s' (fun j => some (L.map (fun l => j.getD (l - origin).toNat 0))) ∧
      ∀ R : Val α, Conforms s' R → (∀ kb b, R = .arr kb b → b.WF) →
    ∃ k' a', (do let idx ← ofRes (selection (fun R => transpose origin (some L) R) (.arr kd a))
                 assignValue (m := m) fits none (.arr kd a) idx R) = pure (.arr k' a') ∧
      Written none s' (fun j => some (L.map (fun l => j.getD (l - origin).toNat 0))) R a a' ∧
      ∃ k'', transpose origin (some L) (.arr k' a') = .ok (.arr k'' ⟨s', assignedValues (size s') R⟩) := by
  have hLne : L ≠ [] := by
    intro h
    have := hv.1
    rw [h] at this
    exact hs (List.length_eq_zero_iff.1 this.symm)
  obtain ⟨r0, h01, h02, h03, h04, h05⟩ := C11_dyadic_transpose origin ho L (⟨a.shape, List.replicate (size a.shape) ()⟩ : Arr Unit) (by simp [Arr.WF]) hs hv
  have hF : SelectsBy (fun β _ R => transpose origin (some L) R) a.shape r0.shape (fun j => some (L.map (fun l => j.getD (l - origin).toNat 0))) := by
    intro β z kd b hw hb
    obtain ⟨r, h1, h2, h3, h4, h5⟩ := C11_dyadic_transpose origin ho L b hw (by rw [hb]; exact hs) (by rw [hb]; exact hv)
    have hsh : r.shape = r0.shape := by
      have hl : r.shape.length = r0.shape.length := by
        rcases Nat.lt_trichotomy r.shape.length r0.shape.length with h | h | h
        · have := (h3 _).2 ((h03 r.shape.length).1 h); omega
        · exact h
        · have := (h03 _).2 ((h3 r0.shape.length).1 h); omega
      apply List.ext_getElem hl
      intro i hi hi0
      obtain ⟨p1, k1, p2, p3, p4⟩ := h4 i hi
      obtain ⟨q1, k2, q2, q3, q4⟩ := h04 i hi0
      have e1 := p1 k2 (by rw [hb]; exact q2) q3
      have e2 := q1 k1 (by rw [hb] at p2; exact p2) p3
      rw [hb] at p4 e1
      simp only at e2 q4
      rw [getD_eq_getElem _ 0 hi] at p4 e1
      rw [getD_eq_getElem _ 0 hi0] at q4 e2
      omega
    refine ⟨kd, r, ?_, h2, hsh, ?_⟩
    · simp only [transpose]
      rw [if_neg (by simpa using hLne)]
      simp only [h1, bind, Except.bind]; rfl
    · intro j hj
      refine ⟨by simp, ?_⟩
      intro p hp
      simp only [Option.some.injEq] at hp
      subst hp
      have := h5 j (by rw [hsh]; exact hj)
      rwa [hb] at this
  refine ⟨r0.shape, h03, hF, ?_⟩
  intro R hR hRw
  refine select_and_read _ _ z fits kd a hw _ _ hF (C18_selection (m := m) _ fits none kd a hw _ _ hF (by simp) R hR hRw)
    (by simp) ?_ hR hRw
  intro j j' hj hj' h
  simp only [Option.some.injEq] at h
  apply List.ext_getElem (by rw [hj.length_eq, hj'.length_eq])
  intro i hi hi'
  have hm := (h03 i).1 (by rw [← hj.length_eq]; exact hi)
  have := (List.map_inj_left.1 h) _ hm
  simp only [show ((i : Int) + origin - origin).toNat = i by omega] at this
  rwa [getD_eq_getElem _ 0 hi, getD_eq_getElem _ 0 hi'] at this


/-- the axis lengths of `L↑[x]A` for `A` of shape `s` -/
def takeLens (L : List Int) (s : List Nat) (x : List Int) : List Nat :=
  (List.range s.length).map (fun k => match countFor L s.length x k with | some n => n.natAbs | none => s.getD k 0)

/-- the component `k` of the position of `A` that `L↑[x]A` shows at `j` (possibly outside `A`) -/
def takeSrc (L : List Int) (s : List Nat) (x : List Int) (j : List Nat) (k : Nat) : Int :=
  (j.getD k 0 : Int) + match countFor L s.length x k with
    | some n => if n < 0 then (s.getD k 0 : Int) + n else 0
    | none => 0

/-- the position of `A` that `L↑[x]A` shows at `j`, `none` when outside -/
def takePos (L : List Int) (s : List Nat) (x : List Int) (j : List Nat) : Option (List Nat) :=
  if ∀ k, k < s.length → 0 ≤ takeSrc L s x j k ∧ takeSrc L s x j k < s.getD k 0 then
    some ((List.range s.length).map (fun k => (takeSrc L s x j k).toNat))
  else none

theorem shape_map {s : List Nat} {n : Nat} {f : Nat → Nat} (hl : s.length = n) (h : ∀ k, k < n → s.getD k 0 = f k) : s = (List.range n).map f := by
  apply List.ext_getElem (by simpa using hl)
  intro i hi hi'
  have := h i (by omega)
  rw [getD_eq_getElem _ 0 hi] at this
  simp [this]

/-- take with an axis list -/
theorem selects_take (L : List Int) (s : List Nat) (hs : s ≠ []) (x : List Int) (hn : x.Nodup) (hx : ∀ n ∈ x, 0 ≤ n ∧ n < s.length)
    (hL : L.length ≤ s.length) :
    SelectsBy (fun β z R => takedrop (fun _ => .mixed) true z z (some L) R x) s (takeLens L s x) (takePos L s x) := by
  intro β z kd b hw hb
  subst hb
  obtain ⟨r, h1, h2, h3, h4, h5⟩ := C05_take z L b x hw hs hn hx hL
  have hsh : r.shape = takeLens L b.shape x := shape_map h3 h4
  refine ⟨kd, r, ?_, h2, hsh, ?_⟩
  · simp only [takedrop, h1, bind, Except.bind]; rfl
  · intro j hj
    have h := h5 j (by rw [hsh]; exact hj)
    simp only at h
    unfold takePos
    constructor
    · intro hp
      by_cases hc : ∀ k, k < b.shape.length → 0 ≤ takeSrc L b.shape x j k ∧ takeSrc L b.shape x j k < b.shape.getD k 0
      · rw [if_pos hc] at hp; simp at hp
      · exact h.2 hc
    · intro p hp
      by_cases hc : ∀ k, k < b.shape.length → 0 ≤ takeSrc L b.shape x j k ∧ takeSrc L b.shape x j k < b.shape.getD k 0
      · rw [if_pos hc] at hp
        simp only [Option.some.injEq] at hp
        subst hp
        exact ⟨(h.1 hc).2, (h.1 hc).1⟩
      · rw [if_neg hc] at hp; simp at hp

theorem range_map_inj {n : Nat} {f g : Nat → Nat} (h : (List.range n).map f = (List.range n).map g) : ∀ k, k < n → f k = g k := by
  intro k hk
  exact (List.map_inj_left.1 h) k (List.mem_range.2 hk)

theorem takePos_inj (L : List Int) (s : List Nat) (x : List Int) (j j' : List Nat) (hj : j.length = s.length) (hj' : j'.length = s.length)
    (hne : takePos L s x j ≠ none) (h : takePos L s x j = takePos L s x j') : j = j' := by
  have hne' : takePos L s x j' ≠ none := by rwa [← h]
  unfold takePos at *
  split at h
  · rename_i c1
    split at h
    · rename_i c2
      simp only [Option.some.injEq] at h
      have e := range_map_inj h
      apply List.ext_getElem (by omega)
      intro i hi hi'
      have e1 := e i (by omega)
      have q1 := c1 i (by omega)
      have q2 := c2 i (by omega)
      have : takeSrc L s x j i = takeSrc L s x j' i := by omega
      unfold takeSrc at this
      have e2 : j.getD i 0 = j'.getD i 0 := by omega
      rwa [getD_eq_getElem _ 0 hi, getD_eq_getElem _ 0 hi'] at e2
    · rename_i c2; rw [if_neg c2] at hne'; simp at hne'
  · rename_i c1; rw [if_neg c1] at hne; simp at hne

theorem takeLens_length (L : List Int) (s : List Nat) (x : List Int) : (takeLens L s x).length = s.length := by simp [takeLens]

/-- C18: `(L↑A)←R` without overtake (no count exceeds its axis): exactly the taken positions are written, then `L↑A` is `R`;
with overtake it is rejected. -/
theorem C18_take (z : α) (fits : Kind → α → Bool) (kd : Kind) (a : Arr α) (hw : a.WF) (hs : a.shape ≠ []) (L : List Int) (x : List Int)
    (hn : x.Nodup) (hx : ∀ n ∈ x, 0 ≤ n ∧ n < a.shape.length) (hL : L.length ≤ a.shape.length) :
    ((∀ j, InB (takeLens L a.shape x) j → takePos L a.shape x j ≠ none) →
      ∀ R : Val α, Conforms (takeLens L a.shape x) R → (∀ kb b, R = .arr kb b → b.WF) →
      ∃ k' a', (do let idx ← ofRes (takeDropSelection (fun R => takedrop (fun _ => .mixed) true 0 0 (some L) R x) (.arr kd a))
                   assignValue (m := m) fits none (.arr kd a) idx R) = pure (.arr k' a') ∧
        Written none (takeLens L a.shape x) (takePos L a.shape x) R a a' ∧
        ∃ k'', takedrop (fun _ => .mixed) true z z (some L) (.arr k' a') x =
          .ok (.arr k'' ⟨takeLens L a.shape x, assignedValues (size (takeLens L a.shape x)) R⟩)) ∧
    ((∃ j, InB (takeLens L a.shape x) j ∧ takePos L a.shape x j = none) →
      takeDropSelection (fun R => takedrop (fun _ => .mixed) true 0 0 (some L) R x) (.arr kd a) = .error .err) := by
  have hF := selects_take L a.shape hs x hn hx hL
  constructor
  · intro hfill R hR hRw
    refine select_and_read _ _ z fits kd a hw _ _ hF (C18_takedrop (m := m) _ fits none kd a hw _ _ hF hfill R hR hRw) hfill ?_ hR hRw
    intro j j' hj hj' h
    exact takePos_inj L a.shape x j j' (by rw [hj.length_eq, takeLens_length]) (by rw [hj'.length_eq, takeLens_length]) (hfill j hj) h
  · rintro ⟨j, hj, hp⟩
    exact C18_takedrop_fill _ kd a hw _ _ hF j hj hp

/-- C18: `(L↑[x]A)←R` with an axis specification: fill positions are skipped (also with overtake). -/
theorem C18_take_axis (fits : Kind → α → Bool) (g : Option (α → α → α)) (kd : Kind) (a : Arr α) (hw : a.WF) (hs : a.shape ≠ []) (L : List Int) (x : List Int)
    (hn : x.Nodup) (hx : ∀ n ∈ x, 0 ≤ n ∧ n < a.shape.length) (hL : L.length ≤ a.shape.length)
    (R : Val α) (hR : Conforms (takeLens L a.shape x) R) (hRw : ∀ kb b, R = .arr kb b → b.WF) :
    ∃ k' a', (do let idx ← ofRes (selectSimple (fun R => takedrop (fun _ => .mixed) true 0 0 (some L) R x) (.arr kd a))
                 assignValue (m := m) fits (pureMod g) (.arr kd a) idx R) = pure (.arr k' a') ∧
      Written g (takeLens L a.shape x) (takePos L a.shape x) R a a' :=
  C18_select_fill (m := m) _ fits g kd a hw _ _ (selects_take L a.shape hs x hn hx hL) R hR hRw

/-- the axis lengths of `L↓[x]A` -/
def dropLens (L : List Int) (s : List Nat) (x : List Int) : List Nat :=
  (List.range s.length).map (fun k => s.getD k 0 - ((countFor L s.length x k).getD 0).natAbs)

/-- the position of `A` that `L↓[x]A` shows at `j` -/
def dropPos (L : List Int) (s : List Nat) (x : List Int) (j : List Nat) : List Nat :=
  (List.range s.length).map (fun k => j.getD k 0 + ((countFor L s.length x k).getD 0).toNat)

theorem selects_drop (L : List Int) (s : List Nat) (hs : s ≠ []) (x : List Int) (hn : x.Nodup) (hx : ∀ n ∈ x, 0 ≤ n ∧ n < s.length)
    (hL : L.length ≤ s.length) :
    SelectsBy (fun β z R => takedrop (fun _ => .mixed) false z z (some L) R x) s (dropLens L s x) (fun j => some (dropPos L s x j)) := by
  intro β z kd b hw hb
  subst hb
  obtain ⟨r, h1, h2, h3, h4, h5⟩ := C06_drop z L b x hw hs hn hx hL
  have hsh : r.shape = dropLens L b.shape x := shape_map h3 h4
  refine ⟨kd, r, ?_, h2, hsh, ?_⟩
  · simp only [takedrop, h1, bind, Except.bind]; rfl
  · intro j hj
    refine ⟨by simp, ?_⟩
    intro p hp
    simp only [Option.some.injEq] at hp
    subst hp
    exact h5 j (by rw [hsh]; exact hj)

/-- C18: `(L↓A)←R`: exactly the positions that are not dropped are written, then `L↓A` is `R`. -/
theorem C18_drop (z : α) (fits : Kind → α → Bool) (kd : Kind) (a : Arr α) (hw : a.WF) (hs : a.shape ≠ []) (L : List Int) (x : List Int)
    (hn : x.Nodup) (hx : ∀ n ∈ x, 0 ≤ n ∧ n < a.shape.length) (hL : L.length ≤ a.shape.length)
    (R : Val α) (hR : Conforms (dropLens L a.shape x) R) (hRw : ∀ kb b, R = .arr kb b → b.WF) :
    ∃ k' a', (do let idx ← ofRes (takeDropSelection (fun R => takedrop (fun _ => .mixed) false 0 0 (some L) R x) (.arr kd a))
                 assignValue (m := m) fits none (.arr kd a) idx R) = pure (.arr k' a') ∧
      Written none (dropLens L a.shape x) (fun j => some (dropPos L a.shape x j)) R a a' ∧
      ∃ k'', takedrop (fun _ => .mixed) false z z (some L) (.arr k' a') x =
        .ok (.arr k'' ⟨dropLens L a.shape x, assignedValues (size (dropLens L a.shape x)) R⟩) := by
  have hF := selects_drop L a.shape hs x hn hx hL
  refine select_and_read _ _ z fits kd a hw _ _ hF (C18_takedrop (m := m) _ fits none kd a hw _ _ hF (by simp) R hR hRw) (by simp) ?_ hR hRw
  intro j j' hj hj' h
  simp only [Option.some.injEq] at h
  have e := range_map_inj h
  have l1 := hj.length_eq
  have l2 := hj'.length_eq
  simp only [dropLens, List.length_map, List.length_range] at l1 l2
  apply List.ext_getElem (by omega)
  intro i hi hi'
  have e1 := e i (by omega)
  rw [getD_eq_getElem _ 0 hi, getD_eq_getElem _ 0 hi'] at e1
  omega

/-- replicate along the last axis (the axis `/` uses); `replPos L` lists the source position, or `none` for fill, of every position
of the result axis -/
theorem selects_replicate (L : List Int) (s : List Nat) (k : Nat) (axis : Int) (hk : k < s.length)
    (hax : axis = k ∨ axis = (k : Int) - s.length) (hL : L.length = s.getD k 0) :
    SelectsBy (fun β z R => replicateVal (fun _ => .mixed) z L R axis) s (s.set k (replPos L).length)
      (fun j => ((replPos L)[j.getD k 0]?.getD none).map (fun n => j.set k n)) := by
  intro β z kd b hw hb
  subst hb
  obtain ⟨r, h1, h2, h3, h4⟩ := C14_replicate z L b k axis hw hk hax hL
  refine ⟨kd, r, ?_, h2, h3, ?_⟩
  · simp only [replicateVal, toArrayVal, h1, bind, Except.bind]; rfl
  · intro j hj
    obtain ⟨o, e1, e2⟩ := h4 j (by rw [h3]; exact hj)
    simp only [e1]
    cases o with
    | none => exact ⟨fun _ => e2, by simp⟩
    | some n =>
      refine ⟨by simp, ?_⟩
      intro p hp
      simp only [Option.getD_some, Option.map_some, Option.some.injEq] at hp
      subst hp
      exact e2

/-- C18: `(L/A)←R`, with or without a modifier: fill positions are skipped, a position that is repeated gets the last value. -/
theorem C18_replicate (fits : Kind → α → Bool) (g : Option (α → α → α)) (kd : Kind) (a : Arr α) (hw : a.WF) (L : List Int) (k : Nat) (axis : Int)
    (hk : k < a.shape.length) (hax : axis = k ∨ axis = (k : Int) - a.shape.length) (hL : L.length = a.shape.getD k 0)
    (R : Val α) (hR : Conforms (a.shape.set k (replPos L).length) R) (hRw : ∀ kb b, R = .arr kb b → b.WF) :
    ∃ k' a', (do let idx ← ofRes (selectSimple (fun R => replicateVal (fun _ => .mixed) 0 L R axis) (.arr kd a))
                 assignValue (m := m) fits (pureMod g) (.arr kd a) idx R) = pure (.arr k' a') ∧
      Written g (a.shape.set k (replPos L).length) (fun j => ((replPos L)[j.getD k 0]?.getD none).map (fun n => j.set k n)) R a a' :=
  C18_select_fill (m := m) _ fits g kd a hw _ _ (selects_replicate L a.shape k axis hk hax hL) R hR hRw

theorem selects_expand (L : List Int) (hLne : L ≠ []) (s : List Nat) (k : Nat) (axis : Int) (hk : k < s.length)
    (hax : axis = k ∨ axis = (k : Int) - s.length) (hs : s.getD k 0 ≠ 1 ∨ L.length ≤ 1)
    (hcnt : L.countP (fun n => decide (0 < n)) ≤ s.getD k 0) :
    SelectsBy (fun β z R => expandVal (fun _ => .mixed) z L R axis) s (s.set k (expPos L (s.getD k 0)).length)
      (fun j => ((expPos L (s.getD k 0))[j.getD k 0]?.getD none).map (fun n => j.set k n)) := by
  intro β z kd b hw hb
  subst hb
  obtain ⟨r, h1, h2, h3, h4⟩ := C15_expand z L b k axis hw hLne hk hax hs hcnt
  refine ⟨kd, r, ?_, h2, h3, ?_⟩
  · simp only [expandVal, toArrayVal, h1, bind, Except.bind]; rfl
  · intro j hj
    obtain ⟨o, e1, e2⟩ := h4 j (by rw [h3]; exact hj)
    simp only [e1]
    cases o with
    | none => exact ⟨fun _ => e2, by simp⟩
    | some n =>
      refine ⟨by simp, ?_⟩
      intro p hp
      simp only [Option.getD_some, Option.map_some, Option.some.injEq] at hp
      subst hp
      exact e2

/-- C18: `(L\A)←R`. -/
theorem C18_expand (fits : Kind → α → Bool) (g : Option (α → α → α)) (kd : Kind) (a : Arr α) (hw : a.WF) (L : List Int) (hLne : L ≠ []) (k : Nat) (axis : Int)
    (hk : k < a.shape.length) (hax : axis = k ∨ axis = (k : Int) - a.shape.length) (hs : a.shape.getD k 0 ≠ 1 ∨ L.length ≤ 1)
    (hcnt : L.countP (fun n => decide (0 < n)) ≤ a.shape.getD k 0)
    (R : Val α) (hR : Conforms (a.shape.set k (expPos L (a.shape.getD k 0)).length) R) (hRw : ∀ kb b, R = .arr kb b → b.WF) :
    ∃ k' a', (do let idx ← ofRes (selectSimple (fun R => expandVal (fun _ => .mixed) 0 L R axis) (.arr kd a))
                 assignValue (m := m) fits (pureMod g) (.arr kd a) idx R) = pure (.arr k' a') ∧
      Written g (a.shape.set k (expPos L (a.shape.getD k 0)).length)
        (fun j => ((expPos L (a.shape.getD k 0))[j.getD k 0]?.getD none).map (fun n => j.set k n)) R a a' :=
  C18_select_fill (m := m) _ fits g kd a hw _ _ (selects_expand L hLne a.shape k axis hk hax hs hcnt) R hR hRw

/-- C18: `(,A)←R`: the `n`-th element of `R` becomes the `n`-th element of `A`; then `,A` is `R`. -/
theorem C18_ravel (fits : Kind → α → Bool) (uk : List α → Kind) (kd : Kind) (a : Arr α) (hw : a.WF) (R : Val α)
    (hR : Conforms [size a.shape] R) (hRw : ∀ kb b, R = .arr kb b → b.WF) :
    ∃ k' a', (do let idx ← ofRes (ravelSelection (.arr kd a))
                 assignValue (m := m) fits none (.arr kd a) idx R) = pure (.arr k' a') ∧
      a' = ⟨a.shape, assignedValues (size a.shape) R⟩ ∧
      ravel uk (.arr k' a') = .ok (.arr (uk (assignedValues (size a.shape) R)) ⟨[size a.shape], assignedValues (size a.shape) R⟩) := by
  have hl : a.data.length = size a.shape := hw
  have e : ravelSelection (.arr kd a) = .ok ([size a.shape], (List.range (size a.shape)).map (fun (n : Nat) => (n : Int))) := by
    simp only [ravelSelection, hl]
  rw [e, ofRes_ok, pure_bind]
  obtain ⟨k', a', h1, h2⟩ := written_of_idx (m := m) fits none kd a hw [size a.shape] (fun j => some (unflat a.shape (j.getD 0 0)))
    (by
      intro j p hj hp
      match j, hj with
      | [i], hj =>
        simp only [List.getD_cons_zero, Option.some.injEq] at hp
        subst hp
        exact unflat_inB (by simpa [InB] using hj))
    ((List.range (size a.shape)).map (fun (n : Nat) => (n : Int))) (by simp [size])
    (by
      intro j hj
      match j, hj with
      | [i], hj =>
        have hi : i < size a.shape := by simpa [InB] using hj
        simp [flat, size, posInt, hi, flat_unflat hi])
    R hR hRw
  have hlen := conforms_len (n := size a.shape) (s := [size a.shape]) (by simp [size]) hR hRw
  obtain ⟨w1, w2, w3, w4⟩ := h2
  have ha : a' = ⟨a.shape, assignedValues (size a.shape) R⟩ := by
    refine Arr.ext_get (b := ⟨a.shape, assignedValues (size a.shape) R⟩) w1 hlen w2 ?_
    intro i hi
    rw [w2] at hi
    have hlt := flat_lt hi
    have hv := List.getElem?_eq_getElem (l := assignedValues (size a.shape) R) (i := flat a.shape i) (by omega)
    rw [Arr.get?_of_inB (a := ⟨a.shape, assignedValues (size a.shape) R⟩) hi, hv]
    rw [w4 [flat a.shape i] i _ (by simpa [InB] using hlt) (by simp [unflat_flat hi]) (by
        rw [show size [size a.shape] = size a.shape by simp [size], show flat [size a.shape] [flat a.shape i] = flat a.shape i by simp [flat, size]]; exact hv) (by
      intro j' hj' hlt' hc
      match j', hj' with
      | [q], hj' =>
        simp only [List.getD_cons_zero, Option.some.injEq] at hc
        have hq : q < size a.shape := by simpa [InB] using hj'
        have := congrArg (flat a.shape) hc
        rw [flat_unflat hq] at this
        simp [flat, size] at hlt'
        omega) (Or.inl rfl)]
    have hsome := Arr.get?_isSome hw hi
    cases hg : a.get? i with
    | none => rw [hg] at hsome; simp at hsome
    | some y => simp [upd1]
  refine ⟨k', a', h1, ha, ?_⟩
  rw [C04_ravel, ha]
  simp [hlen]

/-- C18: `(S⍴A)←R` for a non-empty `A`: the element of `R` at `j` goes to the element of `A` that
`S⍴A` shows there. -/
theorem C18_reshape (fits : Kind → α → Bool) (g : Option (α → α → α)) (kd : Kind) (a : Arr α) (hw : a.WF) (S : List Nat) (hS : S ≠ [])
    (hne : a.data ≠ []) (R : Val α) (hR : Conforms S R) (hRw : ∀ kb b, R = .arr kb b → b.WF) :
    ∃ k' a', (do let idx ← ofRes (selection (fun R => rho2 0 (fun _ => .mixed) (S.map Int.ofNat) R) (.arr kd a))
                 assignValue (m := m) fits (pureMod g) (.arr kd a) idx R) = pure (.arr k' a') ∧
      Written g S (fun j => some (unflat a.shape (flat S j % size a.shape))) R a a' := by
  have hpos : 0 < size a.shape := by
    have : a.data.length = size a.shape := hw
    rw [← this]; exact List.length_pos_iff.2 hne
  have hF : SelectsBy (fun β z R => rho2 z (fun _ => .mixed) (S.map Int.ofNat) R) a.shape S (fun j => some (unflat a.shape (flat S j % size a.shape))) := by
    intro β z kd b hwb hb
    have hbl : b.data.length = size a.shape := by rw [hwb, hb]
    obtain ⟨r, h1, h2, h3, h4⟩ := C03_reshape_cyclic z (fun _ => .mixed) kd b (by intro h; rw [h] at hbl; simp at hbl; omega) S hS
    refine ⟨kd, r, h1, h3, h2, ?_⟩
    intro j hj
    refine ⟨by simp, ?_⟩
    intro p hp
    simp only [Option.some.injEq] at hp
    subst hp
    have hlt : flat S j % size a.shape < size a.shape := Nat.mod_lt _ hpos
    refine ⟨unflat_inB hlt, ?_⟩
    rw [Arr.get?_of_inB (by rw [h2]; exact hj), Arr.get?_of_inB (by rw [hb]; exact unflat_inB hlt), h2, h4 _ (flat_lt hj), hb, flat_unflat hlt, hbl]
  exact C18_selection (m := m) _ fits g kd a hw S _ hF (by simp) R hR hRw

/-- Selecting from something that is no array is rejected. -/
theorem C18_no_array (f : Val Int → Res (Val Int)) (x : α) :
    selection f (.scalar x) = .error .err ∧ takeDropSelection f (.scalar x) = .error .err ∧ selectSimple f (.scalar x) = .error .err ∧
    ravelSelection (.scalar x) = .error .err := ⟨rfl, rfl, rfl, rfl⟩

/-- Deviation: only the function next to the variable is evaluated as a selection, the functions left of it are applied to its index
array as to any array.  A fill of the outer function is then 0, the position of the first element: `A←1 2 3 ⋄ (5↑⌽A)←9`
overwrites `A[0]` also for the fill positions; here `(5↑⌽A)←10 20 30 40 50` on `A←1 2 3` leaves `50 20 10` instead of `30 20 10`. -/
theorem C18_nested_fill_counterexample :
    (do let (s, d) ← ofRes (selection (fun R => reverse R (-1)) (.arr .int ⟨[3], [1, 2, 3]⟩))
        let v ← ofRes (takedrop (fun _ => .int) true 0 0 (some [5]) (.arr .int ⟨s, d⟩) [])
        let idx ← ofRes (toIndexArr v)
        assignValue (m := Id) (fun _ _ => true) none (.arr .int ⟨[3], [1, 2, 3]⟩) idx (.arr .int ⟨[5], [10, 20, 30, 40, 50]⟩) : ExceptT Fail Id (Val Int))
      = pure (.arr .int ⟨[3], [50, 20, 10]⟩) := by rfl

example : (do let idx ← ofRes (takeDropSelection (fun R => takedrop (fun _ => .int) true 0 0 (some [-2]) R []) (.arr .int ⟨[3], [1, 2, 3]⟩))
              assignValue (m := Id) (fun _ _ => true) none (.arr .int ⟨[3], [1, 2, 3]⟩) idx (.arr .int ⟨[2], [10, 20]⟩) : ExceptT Fail Id (Val Int))
      = pure (.arr .int ⟨[3], [1, 10, 20]⟩) := by rfl

example : (do let idx ← ofRes (selectSimple (fun R => replicateVal (fun _ => .int) 0 [1, -1, 0, 2] R (-1)) (.arr .int ⟨[4], [1, 2, 3, 4]⟩))
              assignValue (m := Id) (fun _ _ => true) none (.arr .int ⟨[4], [1, 2, 3, 4]⟩) idx (.arr .int ⟨[4], [10, 20, 30, 40]⟩) : ExceptT Fail Id (Val Int))
      = pure (.arr .int ⟨[4], [10, 2, 3, 40]⟩) := by rfl

end Iv

import Verif.Props.Dict
/-
C41 nested lists.
-/
namespace Iv
variable {A : Type} {m : Type → Type} [Monad m] [LawfulMonad m]

/-- Specification: the item at a path (`none` when the path leaves the structure; the empty path is the value itself). -/
def NList.item : NList A → List Nat → Option (NList A)
  | x, [] => some x
  | .leaf _, _ :: _ => none
  | .list l, k :: p => match l[k]? with
    | some x => x.item p
    | none => none

/-- Specification: the length of a list, `none` for something else. -/
def NList.len : NList A → Option Nat
  | .leaf _ => none
  | .list l => some l.length

theorem getDeep_eq (p : List Nat) (hp : p ≠ []) : ∀ x : NList A, getDeep x p = orErr (x.item p) := by
  induction p with
  | nil => exact absurd rfl hp
  | cons k p ih =>
    intro x
    cases x with
    | leaf a => cases p <;> rfl
    | list l =>
      cases p with
      | nil => simp only [getDeep, NList.item]; cases l[k]? <;> rfl
      | cons k' p =>
        simp only [getDeep, NList.item]
        cases h : l[k]? with
        | none => rfl
        | some v => simp only [ih (by simp) v, NList.item]

/-- C41: getting the item at a non-empty path; a path that leaves the structure is rejected. -/
theorem C41_get (x : NList A) (p : List Nat) (hp : p ≠ []) :
    (∀ v, x.item p = some v → getDeep x p = .ok v) ∧ (x.item p = none → getDeep x p = .error .err) := by
  rw [getDeep_eq p hp]
  exact ⟨fun v h => by rw [h]; rfl, fun h => by rw [h]; rfl⟩

theorem setDeep_spec (p : List Nat) (hp : p ≠ []) : ∀ (x v : NList A),
    ((x.item p).isSome = true → ∃ y, setDeep x p v = .ok y ∧
      (∀ q, y.item (p ++ q) = v.item q) ∧
      (∀ q, ¬ p <+: q → ¬ q <+: p → y.item q = x.item q) ∧
      (∀ q, q <+: p → q ≠ p → (y.item q).map NList.len = (x.item q).map NList.len)) ∧
    (x.item p = none → setDeep x p v = .error .err) := by
  induction p with
  | nil => exact absurd rfl hp
  | cons k p ih =>
    intro x v
    cases x with
    | leaf a => exact ⟨by intro h; simp [NList.item] at h, by intro _; cases p <;> rfl⟩
    | list l =>
      by_cases hk : k < l.length
      · have hlk := List.getElem?_eq_getElem hk
        have hset : ∀ z : NList A, ∀ k', (l.set k z)[k']? = if k = k' then some z else l[k']? := by
          intro z k'
          rw [List.getElem?_set]
          by_cases h : k = k'
          · subst h; simp [hk]
          · simp [h]
        cases p with
        | nil =>
          refine ⟨?_, by intro h; simp [NList.item, hlk] at h⟩
          intro _
          refine ⟨.list (l.set k v), by simp [setDeep, hk], ?_, ?_, ?_⟩
          · intro q; simp [NList.item, hk]
          · intro q h1 h2
            cases q with
            | nil => exact absurd (List.nil_prefix) h2
            | cons k' q =>
              have hne : k ≠ k' := by rintro rfl; exact h1 (by simp)
              simp only [NList.item, hset, if_neg hne]
          · intro q h1 h2
            have : q = [] := by
              cases q with
              | nil => rfl
              | cons k' q =>
                have := List.cons_prefix_cons.1 h1
                simp at this
                exact absurd (by rw [this.1, this.2]) h2
            subst this
            simp [NList.item, NList.len]
        | cons k2 p =>
          obtain ⟨ih1, ih2⟩ := ih (by simp) l[k] v
          refine ⟨?_, ?_⟩
          · intro h
            simp only [NList.item, hlk] at h
            obtain ⟨y, e1, e2, e3, e4⟩ := ih1 h
            refine ⟨.list (l.set k y), by simp only [setDeep, hlk, e1, bind, Except.bind]; rfl, ?_, ?_, ?_⟩
            · intro q
              show NList.item (.list (l.set k y)) (k :: (k2 :: p ++ q)) = _
              simp only [NList.item, hset, if_true]
              exact e2 q
            · intro q h1 h2
              cases q with
              | nil => exact absurd (List.nil_prefix) h2
              | cons k' q =>
                by_cases hkk : k = k'
                · subst hkk
                  simp only [NList.item, hset, if_true, hlk]
                  exact e3 q (fun h => h1 (List.cons_prefix_cons.2 ⟨rfl, h⟩)) (fun h => h2 (List.cons_prefix_cons.2 ⟨rfl, h⟩))
                · simp only [NList.item, hset, if_neg hkk]
            · intro q h1 h2
              cases q with
              | nil => simp [NList.item, NList.len]
              | cons k' q =>
                obtain ⟨rfl, h1'⟩ := List.cons_prefix_cons.1 h1
                simp only [NList.item, hset, if_true, hlk]
                exact e4 q h1' (by rintro rfl; exact h2 rfl)
          · intro h
            simp only [NList.item, hlk] at h
            simp only [setDeep, hlk, ih2 h, bind, Except.bind]
      · have hlk : l[k]? = none := List.getElem?_eq_none (by omega)
        refine ⟨by intro h; simp [NList.item, hlk] at h, ?_⟩
        intro _
        cases p with
        | nil => simp [setDeep, hk]
        | cons k2 p => simp [setDeep, hlk]

/-- C41: setting at a path inside the structure succeeds; then the item there is the new value; an item at a path that neither goes through it nor
leads to it is unchanged; every list on the way keeps its length; a path that leaves the structure is rejected. -/
theorem C41_set (p : List Nat) (hp : p ≠ []) (x v : NList A) :
    ((x.item p).isSome = true → ∃ y, setDeep x p v = .ok y ∧ y.item p = some v ∧ getDeep y p = .ok v ∧
      (∀ q, ¬ p <+: q → ¬ q <+: p → y.item q = x.item q) ∧
      (∀ q, q <+: p → q ≠ p → (y.item q).map NList.len = (x.item q).map NList.len)) ∧
    (x.item p = none → setDeep x p v = .error .err) := by
  obtain ⟨h1, h2⟩ := setDeep_spec p hp x v
  refine ⟨?_, h2⟩
  intro h
  obtain ⟨y, e1, e2, e3, e4⟩ := h1 h
  have e := e2 []
  rw [List.append_nil, NList.item] at e
  exact ⟨y, e1, e, (C41_get y p hp).1 v e, e3, e4⟩

/-- Specification: the path `p` written as the integers `spec` (zero-based): a negative component counts from the end of the list it
indexes. -/
def PathOf : NList A → List Int → List Nat → Prop
  | _, [], [] => True
  | .list l, i :: spec, k :: p => ((i : Int) = k ∨ (i < 0 ∧ i + l.length = k)) ∧ ∃ x, l[k]? = some x ∧ PathOf x spec p
  | _, _, _ => False

theorem listPath_iff (spec : List Int) : ∀ (x : NList A) (p : List Nat), listPath x spec = .ok p ↔ PathOf x spec p := by
  induction spec with
  | nil =>
    intro x p
    cases x <;> cases p <;> simp [listPath, PathOf]
  | cons i spec ih =>
    intro x p
    cases x with
    | leaf a => simp only [listPath]; cases p <;> simp [PathOf]
    | list l =>
      unfold listPath
      generalize hkdef : (if i < 0 then (l.length : Int) + i else i) = k
      by_cases hb : k < 0 ∨ (l.length : Int) ≤ k
      · rw [if_pos hb]
        constructor
        · intro h; simp at h
        · intro h
          cases p with
          | nil => simp [PathOf] at h
          | cons n p =>
            obtain ⟨h1, x, h2, h3⟩ := h
            have := (List.getElem?_eq_some_iff.1 h2).1
            exfalso
            split at hkdef <;> omega
      · rw [if_neg hb]
        have hlt : k.toNat < l.length := by omega
        have huniq : ∀ n : Nat, n < l.length → ((i = n ∨ (i < 0 ∧ i + l.length = n)) ↔ n = k.toNat) := by
          intro n hn
          split at hkdef <;> omega
        have hsl : sliceAt l k.toNat = .ok l[k.toNat] := sliceAt_ok hlt
        have hgen : (do let v ← sliceAt l k.toNat; let p ← listPath v spec; return k.toNat :: p : Res (List Nat)) = .ok p ↔ PathOf (.list l) (i :: spec) p := by
          simp only [hsl, bind, Except.bind]
          cases p with
          | nil =>
            simp only [PathOf, iff_false]
            cases listPath l[k.toNat] spec <;> simp [pure, Except.pure]
          | cons n p =>
            simp only [PathOf, ← ih]
            constructor
            · intro h
              cases hp : listPath l[k.toNat] spec with
              | error e => rw [hp] at h; simp at h
              | ok q =>
                rw [hp] at h
                simp only [pure, Except.pure, Except.ok.injEq, List.cons.injEq] at h
                obtain ⟨rfl, rfl⟩ := h
                exact ⟨(huniq _ hlt).2 rfl, l[k.toNat], List.getElem?_eq_getElem hlt, hp⟩
            · rintro ⟨h1, x, h2, h3⟩
              obtain ⟨hn, hx⟩ := List.getElem?_eq_some_iff.1 h2
              have := (huniq n hn).1 h1
              subst this
              rw [hx, h3]; rfl
        cases spec with
        | nil =>
          rw [← hgen]
          simp only [hsl, bind, Except.bind, listPath]; rfl
        | cons i2 spec => exact hgen

theorem PathOf.item (spec : List Int) : ∀ {x : NList A} {p : List Nat}, PathOf x spec p → (x.item p).isSome = true ∧ p.length = spec.length := by
  induction spec with
  | nil =>
    intro x p h
    cases p with
    | nil => simp [NList.item]
    | cons k p => cases x <;> simp [PathOf] at h
  | cons i spec ih =>
    intro x p h
    cases x with
    | leaf a => cases p <;> simp [PathOf] at h
    | list l =>
      cases p with
      | nil => simp [PathOf] at h
      | cons k p =>
        obtain ⟨_, y, h2, h3⟩ := h
        obtain ⟨e1, e2⟩ := ih h3
        simp [NList.item, h2, e1, e2]

/-- C41: `L[i;j;…]` is the item at that path (components shifted by ⎕IO, negative ones counted from the end); any other specification is rejected. -/
theorem C41_index (origin : Int) (spec : List Int) (hne : spec ≠ []) (x : NList A) :
    (∀ p, PathOf x (spec.map (· - origin)) p → ∃ v, x.item p = some v ∧ listIndex origin spec x = .ok v) ∧
    ((¬ ∃ p, PathOf x (spec.map (· - origin)) p) → ∃ e, listIndex origin spec x = .error e) := by
  constructor
  · intro p hp
    obtain ⟨h1, h2⟩ := PathOf.item _ hp
    obtain ⟨v, hv⟩ := Option.isSome_iff_exists.1 h1
    have hpne : p ≠ [] := by
      intro h; subst h
      simp only [List.length_nil, List.length_map] at h2
      exact hne (List.length_eq_zero_iff.1 h2.symm)
    refine ⟨v, hv, ?_⟩
    simp only [listIndex, (listPath_iff _ x p).2 hp, bind, Except.bind]
    cases p with
    | nil => exact absurd rfl hpne
    | cons k p => exact (C41_get x _ hpne).1 v hv
  · intro h
    cases hl : listPath x (spec.map (· - origin)) with
    | ok p => exact absurd ⟨p, (listPath_iff _ x p).1 hl⟩ h
    | error e => exact ⟨e, by simp only [listIndex, hl, bind, Except.bind]⟩

/-- C41: `L[i;j;…]←R` at a path of the list: afterwards `L[i;j;…]` is `R`, every item elsewhere is unchanged and all lengths are kept. -/
theorem C41_assign (origin : Int) (spec : List Int) (hne : spec ≠ []) (x v : NList A) (p : List Nat) (hp : PathOf x (spec.map (· - origin)) p) :
    ∃ y, listAssign (m := m) origin none x spec v = pure y ∧ y.item p = some v ∧
      (∀ q, ¬ p <+: q → ¬ q <+: p → y.item q = x.item q) ∧
      (∀ q, q <+: p → q ≠ p → (y.item q).map NList.len = (x.item q).map NList.len) := by
  obtain ⟨h1, h2⟩ := PathOf.item _ hp
  have hpne : p ≠ [] := by
    intro h; subst h
    simp only [List.length_nil, List.length_map] at h2
    exact hne (List.length_eq_zero_iff.1 h2.symm)
  obtain ⟨y, e1, e2, _, e3, e4⟩ := (C41_set p hpne x v).1 h1
  refine ⟨y, ?_, e2, e3, e4⟩
  simp only [listAssign, (listPath_iff _ x p).2 hp, ofRes_ok, pure_bind, e1]

/-- C41: with a modifier the new item is `old f R`; a failing `f` fails the assignment before anything is written. -/
theorem C41_modified (origin : Int) (f : NList A → NList A → ExceptT Fail m (NList A)) (spec : List Int) (hne : spec ≠ []) (x v old : NList A)
    (p : List Nat) (hp : PathOf x (spec.map (· - origin)) p) (hold : x.item p = some old) :
    listAssign origin (some f) x spec v = (do let w ← f old v; listAssign origin none x spec w) := by
  obtain ⟨h1, h2⟩ := PathOf.item _ hp
  have hpne : p ≠ [] := by
    intro h; subst h
    simp only [List.length_nil, List.length_map] at h2
    exact hne (List.length_eq_zero_iff.1 h2.symm)
  simp only [listAssign, (listPath_iff _ x p).2 hp, ofRes_ok, pure_bind, (C41_get x p hpne).1 old hold]

/-- C41: a path outside the structure is rejected. -/
theorem C41_rejected (origin : Int) (f : Option (NList A → NList A → ExceptT Fail m (NList A))) (spec : List Int) (x v : NList A)
    (h : ¬ ∃ p, PathOf x (spec.map (· - origin)) p) : ∃ e, listAssign origin f x spec v = throw e := by
  cases hl : listPath x (spec.map (· - origin)) with
  | ok p => exact absurd ⟨p, (listPath_iff _ x p).1 hl⟩ h
  | error e => exact ⟨e, by simp only [listAssign, hl]; rw [ofRes_error, throw_bind']⟩

/-- Remark: the shift by ⎕IO comes before the sign test, so with ⎕IO 1 the index `¯1` is the last but one item (and `0` the last). -/
theorem C41_negative_origin1 : listIndex 1 [-1] (.list [.leaf 10, .leaf 20, .leaf 30] : NList Nat) = .ok (.leaf 20) ∧
    listIndex 0 [-1] (.list [.leaf 10, .leaf 20, .leaf 30] : NList Nat) = .ok (.leaf 30) := ⟨rfl, rfl⟩

example : PathOf (.list [.leaf 1, .list [.leaf 2, .leaf 3]] : NList Nat) [1, -1] [1, 1] :=
  ⟨Or.inl rfl, _, rfl, Or.inr ⟨by omega, rfl⟩, _, rfl, trivial⟩
example : listAssign (m := Id) 0 none (.list [.leaf 1, .list [.leaf 2, .leaf 3]] : NList Nat) [1, -1] (.leaf 9) =
    pure (.list [.leaf 1, .list [.leaf 2, .leaf 9]]) := rfl

end Iv

import Verif.Model.Match
import Verif.Props.Search
import Verif.Props.Tower
import Mathlib.Data.List.Forall2
/-
C56: match, not match, tally and depth.
-/
namespace Iv
variable {V O Q : Type} [LinearOrder Q]

/-- The comparison methods are exact: `val` is the value of a number and of an element of another type. -/
structure ExactEq (e : EqEnv V O) (val : TNum V → Q) : Prop where
  tower : ExactTower e.t e.eqs e.les val
  imp : e.t.impClass < e.t.len
  up : ∀ c v, c + 1 < e.t.len → (e.t.up c v).isSome
  same : ∀ x y, e.same x y = true → val x = val y
  oeq : ∀ ty a b, e.oeq ty a b = true ↔ a = b

/-- Equal elements: numbers of the same value (whatever their types), the same string, the same value of another type. -/
def SameItem (val : TNum V → Q) : UItem V O → UItem V O → Prop
  | .num a, .num b => val a = val b
  | .str a, .str b => a = b
  | .other ta a, .other tb b => ta = tb ∧ a = b
  | _, _ => False

/-- Two elements that have a type in common: two numbers of the tower, two strings, two values of one other type that Go can compare. -/
def OneType (e : EqEnv V O) : UItem V O → UItem V O → Prop
  | .num a, .num b => cls a < e.t.len ∧ cls b < e.t.len
  | .str _, .str _ => True
  | .other ta _, .other tb _ => ta = tb ∧ e.comparable ta = true
  | _, _ => False

/-- A scalar element of a type the interpreter can compare. -/
def Usable (e : EqEnv V O) : UItem V O → Prop
  | .num a => cls a < e.t.len
  | .str _ => True
  | .other ty _ => e.comparable ty = true

/-- Two values are the same: equal scalars, or arrays of the same shape with equal elements (for arrays without axes: of the same type). -/
def SameValue (val : TNum V → Q) : MVal V O → MVal V O → Prop
  | .scalar x, .scalar y => SameItem val x y
  | .array l, .array r => l.shape = r.shape ∧ (l.shape ≠ [] → List.Forall₂ (SameItem val) l.items r.items) ∧ (l.shape = [] → l.rep = r.rep)
  | _, _ => False

/-- Both values have elements of one type. -/
def Fit (e : EqEnv V O) : MVal V O → MVal V O → Prop
  | .scalar x, .scalar y => Usable e x ∧ Usable e y
  | .array l, .array r => l.items.length = prod l.shape ∧ r.items.length = prod r.shape ∧ ∀ x ∈ l.items, ∀ y ∈ r.items, OneType e x y
  | _, _ => True

theorem SameItem.refl' (val : TNum V → Q) (x : UItem V O) : SameItem val x x := by
  cases x <;> simp [SameItem]
theorem SameItem.symm' {val : TNum V → Q} {x y : UItem V O} (h : SameItem val x y) : SameItem val y x := by
  cases x <;> cases y <;> simp_all [SameItem]
theorem SameItem.trans' {val : TNum V → Q} {x y z : UItem V O} (h : SameItem val x y) (h' : SameItem val y z) : SameItem val x z := by
  cases x <;> cases y <;> cases z <;> simp_all [SameItem]

theorem OneType.symm'' {e : EqEnv V O} {x y : UItem V O} (h : OneType e x y) : OneType e y x := by
  cases x <;> cases y <;> simp only [OneType] at h ⊢
  · exact h.symm
  · obtain ⟨rfl, h⟩ := h; exact ⟨rfl, h⟩

theorem feq_spec {e : EqEnv V O} {val : TNum V → Q} (he : ExactEq e val) (x y : UItem V O) (h : OneType e x y) :
    ∃ b, e.feq x y = .ok b ∧ (b = true ↔ SameItem val x y) := by
  cases x <;> cases y <;> simp only [OneType] at h
  case num.num a b =>
    obtain ⟨r, hr⟩ := C36_defined e.t e.eqs e.les val he.tower .eq a b he.imp he.up h.1 h.2
    exact ⟨r, hr, C36_compare e.t e.eqs e.les val he.tower .eq a b r hr⟩
  case str.str a b => exact ⟨_, rfl, by simp [SameItem]⟩
  case other.other ta a tb b =>
    obtain ⟨rfl, h⟩ := h
    refine ⟨e.oeq ta a b, ?_, ?_⟩
    · simp [EqEnv.feq, h]
    · simp [SameItem, he.oeq]

theorem isEqual_spec {e : EqEnv V O} {val : TNum V → Q} (he : ExactEq e val) (x y : UItem V O) (hx : Usable e x) (hy : Usable e y) :
    ∃ b, e.isEqual x y = .ok b ∧ (b = true ↔ SameItem val x y) := by
  cases x <;> cases y
  case num.num a b =>
    have := C19_isEqual e.t e.same e.eqs e.les val he.tower he.same a b (by
      obtain ⟨a', b', h⟩ := C34_same_class_total e.t a b he.imp he.up hx hy
      exact ⟨_, h⟩)
    cases hs : e.same a b with
    | true => exact ⟨true, by simp [EqEnv.isEqual, EqEnv.goEq, hs, bind, Except.bind, pure, Except.pure], by simp [SameItem, he.same a b hs]⟩
    | false =>
      exact ⟨e.t.isEqual e.same e.eqs a b, by simp [EqEnv.isEqual, EqEnv.goEq, hs, bind, Except.bind, pure, Except.pure], this⟩
  case other.other ta a tb b =>
    simp only [Usable] at hx
    by_cases ht : ta = tb
    · subst ht
      refine ⟨e.oeq ta a b, ?_, by simp [SameItem, he.oeq]⟩
      cases ho : e.oeq ta a b <;> simp [EqEnv.isEqual, EqEnv.goEq, hx, ho, bind, Except.bind, pure, Except.pure]
    · exact ⟨false, by simp [EqEnv.isEqual, EqEnv.goEq, ht, bind, Except.bind, pure, Except.pure], by simp [SameItem, ht]⟩
  case str.str a b =>
    refine ⟨decide (a = b), ?_, by simp [SameItem]⟩
    cases ho : decide (a = b) <;> simp [EqEnv.isEqual, EqEnv.goEq, ho, bind, Except.bind, pure, Except.pure]
  all_goals exact ⟨false, by simp [EqEnv.isEqual, EqEnv.goEq, bind, Except.bind, pure, Except.pure], by simp [SameItem]⟩

theorem shapesDiffer_eq (l r : List Nat) (h : l.length = r.length) : shapesDiffer l r = decide (l ≠ r) := by
  induction l generalizing r with
  | nil => cases r with
    | nil => rfl
    | cons => simp at h
  | cons n l ih => cases r with
    | nil => simp at h
    | cons m r =>
      rw [shapesDiffer, ih r (by simpa using h)]
      by_cases hn : n = m
      · simp [hn]
      · simp [hn]

theorem matchLoop_spec {α : Type} (feq : α → α → Res Bool) (P : α → α → Prop) (r l : List α) (hl : r.length = l.length)
    (h : ∀ x ∈ l, ∀ y ∈ r, ∃ b, feq y x = .ok b ∧ (b = true ↔ P x y)) :
    ∃ b, matchLoop feq r l = .ok b ∧ (b = true ↔ List.Forall₂ P l r) := by
  induction r generalizing l with
  | nil =>
    cases l with
    | nil => exact ⟨true, rfl, by simp⟩
    | cons => simp at hl
  | cons y r ih =>
    cases l with
    | nil => simp at hl
    | cons x l =>
      obtain ⟨b, e, hb⟩ := h x (by simp) y (by simp)
      rw [matchLoop, e]
      cases b with
      | true =>
        obtain ⟨b', e', hb'⟩ := ih l (by simpa using hl) (fun x hx y hy => h x (by simp [hx]) y (by simp [hy]))
        exact ⟨b', e', by rw [hb', List.forall₂_cons]; simp [hb.1 rfl]⟩
      | false => exact ⟨false, rfl, by rw [List.forall₂_cons]; simp only [Bool.false_eq_true, false_iff]; rintro ⟨h1, _⟩; exact absurd (hb.2 h1) (by simp)⟩

/-- `L≡R` does not fail for values of one element type, and is 1 exactly if both are the same value. -/
theorem C56_match {e : EqEnv V O} {val : TNum V → Q} (he : ExactEq e val) (L R : MVal V O) (h : Fit e L R) :
    ∃ b, e.match' L R = .ok b ∧ (b = true ↔ SameValue val L R) := by
  cases L with
  | scalar x =>
    cases R with
    | scalar y => exact isEqual_spec he x y h.1 h.2
    | array r => exact ⟨false, rfl, by simp [SameValue]⟩
  | array l =>
    cases R with
    | scalar y => exact ⟨false, rfl, by simp [SameValue]⟩
    | array r =>
      obtain ⟨h1, h2, h3⟩ := h
      by_cases hr : r.shape.length ≠ l.shape.length
      · refine ⟨false, by rw [EqEnv.match', if_pos hr], ?_⟩
        simp only [Bool.false_eq_true, false_iff]
        rintro ⟨e, _⟩
        exact hr (by rw [e])
      · by_cases h0 : r.shape.length = 0
        · refine ⟨_, by rw [EqEnv.match', if_neg hr, if_pos h0], ?_⟩
          have hr0 : r.shape = [] := List.eq_nil_of_length_eq_zero h0
          have hl0 : l.shape = [] := List.eq_nil_of_length_eq_zero (by omega)
          simp only [SameValue, hr0, hl0, decide_eq_true_eq, true_and, ne_eq, not_true_eq_false, false_implies, true_implies]
          exact eq_comm
        · have hl0 : l.shape ≠ [] := by intro h; apply h0; rw [Classical.not_not.1 hr, h]; rfl
          by_cases hs : l.shape = r.shape
          · obtain ⟨b, e1, hb⟩ := matchLoop_spec e.feq (SameItem val) r.items l.items (by rw [h1, h2, hs]) (fun x hx y hy => by
              obtain ⟨b, e1, e2⟩ := feq_spec he y x (by
                have := h3 x hx y hy
                exact this.symm'')
              exact ⟨b, e1, by rw [e2]; exact ⟨SameItem.symm', SameItem.symm'⟩⟩)
            refine ⟨b, ?_, ?_⟩
            · rw [EqEnv.match', if_neg hr, if_neg h0, shapesDiffer_eq _ _ (by omega), if_neg (by simpa using hs)]
              exact e1
            · rw [hb]; simp only [SameValue]; simp [hs]
              rw [← hs]; simp [hl0]
          · refine ⟨false, ?_, ?_⟩
            · rw [EqEnv.match', if_neg hr, if_neg h0, shapesDiffer_eq _ _ (by omega), if_pos (by simpa using hs)]
            · simp [SameValue, hs]

/-- `A≡A` is 1. -/
theorem C56_reflexive {e : EqEnv V O} {val : TNum V → Q} (he : ExactEq e val) (A : MVal V O) (h : Fit e A A) : e.match' A A = .ok true := by
  obtain ⟨b, e1, hb⟩ := C56_match he A A h
  have : SameValue val A A := by
    cases A with
    | scalar x => exact SameItem.refl' val x
    | array a => exact ⟨rfl, fun _ => List.forall₂_same.2 fun x _ => SameItem.refl' val x, fun _ => rfl⟩
  rw [e1, hb.2 this]

theorem SameValue.symm' {val : TNum V → Q} {A B : MVal V O} (h : SameValue val A B) : SameValue val B A := by
  cases A <;> cases B <;> simp only [SameValue] at h ⊢
  · exact h.symm'
  · obtain ⟨h1, h2, h3⟩ := h
    refine ⟨h1.symm, fun h => ?_, fun h => (h3 (h1.trans h)).symm⟩
    have := (h2 (by rwa [h1])).flip
    exact this.imp fun x y h => SameItem.symm' h

theorem SameValue.trans' {val : TNum V → Q} {A B C : MVal V O} (h : SameValue val A B) (h' : SameValue val B C) : SameValue val A C := by
  cases A <;> cases B <;> cases C <;> simp only [SameValue] at h h' ⊢
  · exact h.trans' h'
  · obtain ⟨h1, h2, h3⟩ := h
    obtain ⟨g1, g2, g3⟩ := h'
    refine ⟨h1.trans g1, fun h => ?_, fun h => (h3 h).trans (g3 (h1.symm.trans h))⟩
    have i1 := h2 h
    have i2 := g2 (by rwa [← h1])
    rw [List.forall₂_iff_get] at i1 i2 ⊢
    exact ⟨i1.1.trans i2.1, fun i a c => (i1.2 i a (by omega)).trans' (i2.2 i (by omega) c)⟩

/-- If `A≡B` then `B≡A`. -/
theorem C56_symmetric {e : EqEnv V O} {val : TNum V → Q} (he : ExactEq e val) (A B : MVal V O) (h : Fit e A B) (h' : Fit e B A)
    (hm : e.match' A B = .ok true) : e.match' B A = .ok true := by
  obtain ⟨b, e1, hb⟩ := C56_match he A B h
  obtain ⟨b', e1', hb'⟩ := C56_match he B A h'
  rw [hm] at e1; cases e1
  rw [e1', hb'.2 (hb.1 rfl).symm']

/-- If `A≡B` and `B≡C` then `A≡C`. -/
theorem C56_transitive {e : EqEnv V O} {val : TNum V → Q} (he : ExactEq e val) (A B C : MVal V O) (h : Fit e A B) (h' : Fit e B C) (h'' : Fit e A C)
    (hm : e.match' A B = .ok true) (hm' : e.match' B C = .ok true) : e.match' A C = .ok true := by
  obtain ⟨b, e1, hb⟩ := C56_match he A B h
  obtain ⟨b', e1', hb'⟩ := C56_match he B C h'
  obtain ⟨c, e2, hc⟩ := C56_match he A C h''
  rw [hm] at e1; cases e1
  rw [hm'] at e1'; cases e1'
  rw [e2, hc.2 ((hb.1 rfl).trans' (hb'.1 rfl))]

/-- `L≢R` is the negation of `L≡R` (for any values: an error of one is an error of the other). -/
theorem C56_not_match (e : EqEnv V O) (L R : MVal V O) :
    (∀ b, e.match' L R = .ok b ↔ e.notMatch L R = .ok (!b)) ∧ ∀ f, e.match' L R = .error f ↔ e.notMatch L R = .error f := by
  unfold EqEnv.notMatch
  cases e.match' L R with
  | error f => simp [bind, Except.bind]
  | ok b => cases b <;> simp [bind, Except.bind, pure, Except.pure]

/-- Arrays of the same shape whose first elements are a number and a string cannot be compared: an error, not 0. -/
theorem C56_mixed_error (e : EqEnv V O) (l r : UArr V O) (hs : l.shape = r.shape) (h0 : l.shape ≠ []) (a : TNum V) (s : String) (xs ys : List (UItem V O))
    (hl : l.items = .num a :: xs) (hr : r.items = .str s :: ys) : e.match' (.array l) (.array r) = .error .err := by
  rw [EqEnv.match', if_neg (by simp [hs]), if_neg (by rw [← hs]; simpa using h0), shapesDiffer_eq _ _ (by rw [hs]), if_neg (by simpa using hs), hl, hr]
  rfl

/-- `≢A`: the length of the first axis; the rows of a table; the number of keys of a dictionary; 1 for a scalar. -/
theorem C56_tally {K : Type} : (∀ rows, tally (.table rows : TallyArg K) = rows) ∧ (∀ keys : List K, tally (.object keys) = keys.length) ∧
    (∀ shape, tally (.array shape : TallyArg K) = shape.head?.getD 0) ∧ tally (.scalar : TallyArg K) = 1 :=
  ⟨fun _ => rfl, fun _ => rfl, fun s => by cases s <;> rfl, rfl⟩

/-- There is a list at nesting level `n`: the list itself is at level 0, its elements are at level 1, … -/
inductive ListAt {A : Type} : NList A → Nat → Prop
  | here (l : List (NList A)) : ListAt (.list l) 0
  | there {l : List (NList A)} {x : NList A} {n : Nat} (hx : x ∈ l) (h : ListAt x n) : ListAt (.list l) (n + 1)

theorem depthLoop_spec {A : Type} : (l : List (NList A)) → (mx : Nat) → 1 ≤ mx →
    ∀ n, n < NList.depthLoop mx l ↔ n < mx ∨ ∃ k, n = k + 1 ∧ ∃ x ∈ l, ListAt x k
  | [], mx, _, n => by simp [NList.depthLoop]
  | .leaf a :: l, mx, hm, n => by
    rw [NList.depthLoop, depthLoop_spec l mx hm n]
    constructor
    · rintro (h | ⟨k, rfl, x, hx, h⟩)
      · exact .inl h
      · exact .inr ⟨k, rfl, x, List.mem_cons_of_mem _ hx, h⟩
    · rintro (h | ⟨k, rfl, x, hx, h⟩)
      · exact .inl h
      · rcases List.mem_cons.1 hx with rfl | hx
        · cases h
        · exact .inr ⟨k, rfl, x, hx, h⟩
  | .list e :: l, mx, hm, n => by
    have he : ∀ k, k < NList.depthLoop 1 e ↔ ListAt (.list e) k := by
      intro k
      rw [depthLoop_spec e 1 (Nat.le_refl _) k]
      constructor
      · rintro (h | ⟨k, rfl, x, hx, h⟩)
        · obtain rfl : k = 0 := by omega
          exact .here e
        · exact .there hx h
      · intro h
        cases h with
        | here => exact .inl (by omega)
        | there hx h => exact .inr ⟨_, rfl, _, hx, h⟩
    rw [NList.depthLoop]
    have key : ∀ mx', 1 ≤ mx' → (n < mx' ↔ n < mx ∨ n < 1 + NList.depthLoop 1 e) →
        (n < NList.depthLoop mx' l ↔ n < mx ∨ ∃ k, n = k + 1 ∧ ∃ x ∈ NList.list e :: l, ListAt x k) := by
      intro mx' h1 h2
      rw [depthLoop_spec l mx' h1 n, h2]
      constructor
      · rintro ((h | h) | ⟨k, rfl, x, hx, h⟩)
        · exact .inl h
        · cases n with
          | zero => exact .inl (by omega)
          | succ n => exact .inr ⟨n, rfl, _, by simp, (he n).1 (by omega)⟩
        · exact .inr ⟨k, rfl, x, List.mem_cons_of_mem _ hx, h⟩
      · rintro (h | ⟨k, rfl, x, hx, h⟩)
        · exact .inl (.inl h)
        · rcases List.mem_cons.1 hx with rfl | hx
          · exact .inl (.inr (by have := (he k).2 h; omega))
          · exact .inr ⟨k, rfl, x, hx, h⟩
    split
    · exact key _ (by omega) (by omega)
    · exact key _ hm (by omega)

/-- `≡A`: the levels of nested lists; 1 for an array that is no list, 0 for a scalar. -/
theorem C56_depth {A : Type} (isArray : A → Bool) (v : NList A) :
    (∀ l, v = .list l → ∀ n, n < depthOf isArray v ↔ ListAt v n) ∧
    (∀ a, v = .leaf a → depthOf isArray v = if isArray a = true then 1 else 0) := by
  constructor
  · rintro l rfl n
    rw [depthOf, NList.depth, depthLoop_spec l 1 (Nat.le_refl _) n]
    constructor
    · rintro (h | ⟨k, rfl, x, hx, h⟩)
      · obtain rfl : n = 0 := by omega
        exact .here l
      · exact .there hx h
    · intro h
      cases h with
      | here => exact .inl (by omega)
      | there hx h => exact .inr ⟨_, rfl, _, hx, h⟩
  · rintro a rfl
    rfl

/-! ### Examples -/

def demoEq : EqEnv Int Unit := ⟨demoTower, fun a b => decide (a = b), fun _ => goEquals, fun _ => intLess, fun _ => false, fun _ _ _ => true⟩

theorem demoTower_exact : ExactTower demoTower (fun _ => goEquals) (fun _ => intLess) demoVal where
  bool b := by cases b <;> rfl
  imp_bool b := by cases b <;> rfl
  imp_int n := rfl
  up c v w h := by
    simp only [demoTower] at h; split at h
    · cases h; rfl
    · cases h
  mono m n := Iff.rfl
  eqs c v w := ⟨_, rfl, decide_eq_true_iff⟩
  les c v w := ⟨_, rfl, decide_eq_true_iff⟩
example : ExactEq demoEq demoVal where
  tower := demoTower_exact
  imp := by decide
  up c v h := by
    have : c = 0 := by simp only [demoEq, demoTower] at h; omega
    subst this; rfl
  same x y h := by rw [of_decide_eq_true h]
  oeq ty a b := by simp [demoEq]

example : demoEq.match' (.array ⟨.mixed, [2], [.num (.int 1), .num (.bool true)]⟩) (.array ⟨.mixed, [2], [.num (.num 0 1), .num (.num 1 1)]⟩) = .ok true := by rfl
example : demoEq.match' (.array ⟨.mixed, [2, 1], [.num (.int 1), .num (.bool true)]⟩) (.array ⟨.mixed, [2], [.num (.num 0 1), .num (.num 1 1)]⟩) = .ok false := by rfl
example : demoEq.match' (.scalar (.num (.bool true))) (.scalar (.num (.num 1 1))) = .ok true := by rfl
example : demoEq.match' (.scalar (.str "a")) (.scalar (.num (.num 1 1))) = .ok false := by rfl
example : Fit demoEq (.array ⟨.mixed, [2], [.num (.int 1), .num (.bool true)]⟩) (.array ⟨.mixed, [2], [.num (.num 0 1), .num (.num 1 1)]⟩) := by
  refine ⟨rfl, rfl, ?_⟩
  simp [OneType, cls, demoEq, demoTower]
example : depthOf (fun _ => true) (.list [.leaf 1, .list [.leaf 2, .list []], .list []] : NList Nat) = 3 := by simp [depthOf, NList.depth, NList.depthLoop]

end Iv

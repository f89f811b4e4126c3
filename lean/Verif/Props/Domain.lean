import Verif.Model.Domain
import Verif.Props.Unify
import Verif.Props.Match
/-
C54: the domains of the primitives.
-/
namespace Iv
variable {V O : Type}

/-! ### Specification -/

/-- the elements of a value -/
def MVal.contents : MVal V O → List (UItem V O)
  | .scalar x => [x]
  | .array a => a.items

/-- the shape of a value -/
def MVal.axes : MVal V O → List Nat
  | .scalar _ => []
  | .array a => a.shape

/-- an array has as many elements as its shape says -/
def MVal.Sound : MVal V O → Prop
  | .scalar _ => True
  | .array a => a.items.length = prod a.shape

/-- the same element, or numbers that stand for the same index -/
def SameIdx (e : DomEnv V) (x y : UItem V O) : Prop :=
  y = x ∨ ∃ a b i, x = .num a ∧ y = .num b ∧ e.toIndex a = some i ∧ e.toIndex b = some i

/-- `ToIndex` of integers and booleans (apl/numbers.go, apl/bool.go) -/
structure ExactIdx (e : DomEnv V) : Prop where
  int : ∀ n, e.toIndex (.int n) = some n
  bool : ∀ b, e.toIndex (.bool b) = some (if b then 1 else 0)

/-- the same contents: the same elements in the same order, up to the type of indexes; and for a value that is not empty, the same axes up to
axes of length 1 -/
def SameContents (e : DomEnv V) (v w : MVal V O) : Prop :=
  List.Forall₂ (SameIdx e) v.contents w.contents ∧ (v.contents ≠ [] → v.axes.filter (· ≠ 1) = w.axes.filter (· ≠ 1))

/-- the domain accepts the value `v` as `w` -/
def SDom.Accepts (e : DomEnv V) (d : SDom V O) (v w : MVal V O) : Prop := d.to e v = .ok (w, true)
/-- the domain rejects the value -/
def SDom.Rejects (e : DomEnv V) (d : SDom V O) (v : MVal V O) : Prop := ∃ w, d.to e v = .ok (w, false)
/-- the pair domain accepts the arguments as `L'` and `R'` -/
def PDom.Accepts (e : DomEnv V) (d : PDom V O) (L : Option (MVal V O)) (R : MVal V O) (L' : Option (MVal V O)) (R' : MVal V O) : Prop :=
  d.to e L R = .ok ((L', R'), true)

/-! ### Pairs -/

theorem C54_rejected_unchanged (e : DomEnv V) (d : PDom V O) (L L' : Option (MVal V O)) (R R' : MVal V O)
    (h : d.to e L R = .ok ((L', R'), false)) : L' = L ∧ R' = R := by
  induction d with
  | any => cases h
  | both c =>
    cases c <;> try (cases h; done)
    all_goals
      simp only [PDom.to, bind, Except.bind, pure, Except.pure] at h
      split at h
      · cases h
      split at h
      · split at h
        · cases h
        split at h
        · cases h
        · cases h; exact ⟨rfl, rfl⟩
      · cases h; exact ⟨rfl, rfl⟩
  | either c =>
    cases c <;> try (cases h; done)
    all_goals
      simp only [PDom.to, bind, Except.bind, pure, Except.pure] at h
      split at h
      · cases h
      split at h
      · cases h
      · split at h
        · cases h
        split at h
        · cases h
        · cases h; exact ⟨rfl, rfl⟩
  | split dl dr =>
    simp only [PDom.to, bind, Except.bind, pure, Except.pure] at h
    split at h
    · cases h
    split at h
    · split at h
      · cases h
      split at h
      · cases h
      · cases h; exact ⟨rfl, rfl⟩
    · cases h; exact ⟨rfl, rfl⟩
  | monadic c =>
    cases L with
    | some L => cases h; exact ⟨rfl, rfl⟩
    | none =>
      simp only [PDom.to, bind, Except.bind, pure, Except.pure] at h
      split at h
      · cases h
      split at h
      · cases h
      · cases h; exact ⟨rfl, rfl⟩
  | dyadic c ih =>
    cases L with
    | none => cases h; exact ⟨rfl, rfl⟩
    | some L => exact ih h
  | monadicOp c =>
    simp only [PDom.to, bind, Except.bind, pure, Except.pure] at h
    split at h
    · cases h
    split at h
    · cases h
    · cases h; exact ⟨rfl, rfl⟩
  | dyadicOp c ih =>
    cases L with
    | none => cases h; exact ⟨rfl, rfl⟩
    | some L => exact ih h

theorem to?_some (e : DomEnv V) (d : SDom V O) (v : MVal V O) :
    d.to? e (some v) = (d.to e v).map fun r => (some r.1, r.2) := by
  simp only [SDom.to?, bind, Except.bind, pure, Except.pure]
  cases d.to e v <;> rfl

/-- The conjunction: a pair is accepted by `Split` exactly if both arguments are accepted, and the function is called with the two converted
values. -/
theorem C54_split (e : DomEnv V) (dl dr : SDom V O) (L R : MVal V O) (L' : Option (MVal V O)) (R' : MVal V O) :
    (PDom.split dl dr).Accepts e (some L) R L' R' ↔ ∃ l, L' = some l ∧ dl.Accepts e L l ∧ dr.Accepts e R R' := by
  simp only [PDom.Accepts, PDom.to, to?_some, SDom.Accepts]
  cases hl : dl.to e L with
  | error f => simp [Except.map, bind, Except.bind]
  | ok l =>
    obtain ⟨l, b⟩ := l
    cases b
    · simp [Except.map, bind, Except.bind, pure, Except.pure]
    · cases hr : dr.to e R with
      | error f => simp [Except.map, bind, Except.bind]
      | ok r =>
        obtain ⟨r, b⟩ := r
        cases b
        · simp [Except.map, bind, Except.bind, pure, Except.pure]
        · simp [Except.map, bind, Except.bind, pure, Except.pure, eq_comm]

theorem C54_both (e : DomEnv V) (d : SDom V O) (L R : MVal V O) (L' : Option (MVal V O)) (R' : MVal V O) :
    (PDom.both d).Accepts e (some L) R L' R' ↔ ∃ l, L' = some l ∧ d.Accepts e L l ∧ d.Accepts e R R' := by
  rw [← C54_split]
  simp only [PDom.Accepts]
  cases d <;> first | rfl | simp [PDom.to, SDom.to?, SDom.to, bind, Except.bind, pure, Except.pure]

/-- The disjunction `Any`: the left argument is converted if it is accepted, otherwise the right one, the other argument is not changed. -/
theorem C54_either (e : DomEnv V) (d : SDom V O) (hd : d ≠ .nil) (L R : MVal V O) (L' : Option (MVal V O)) (R' : MVal V O) :
    (PDom.either d).Accepts e (some L) R L' R' ↔
      (∃ l, L' = some l ∧ R' = R ∧ d.Accepts e L l) ∨ (L' = some L ∧ d.Rejects e L ∧ d.Accepts e R R') := by
  have hto : (PDom.either d).to e (some L) R = (do
      let l ← d.to? e (some L)
      if l.2 then return ((l.1, R), true)
      else do
        let r ← d.to e R
        if r.2 then return ((some L, r.1), true) else return ((some L, R), false)) := by
    cases d <;> first | rfl | exact absurd rfl hd
  rw [PDom.Accepts, hto, to?_some]
  simp only [SDom.Accepts, SDom.Rejects]
  cases hl : d.to e L with
  | error f => simp [Except.map, bind, Except.bind]
  | ok l =>
    obtain ⟨l, b⟩ := l
    cases b
    · cases hr : d.to e R with
      | error f => simp [Except.map, bind, Except.bind]
      | ok r =>
        obtain ⟨r, b⟩ := r
        cases b
        · simp [Except.map, bind, Except.bind, pure, Except.pure]
        · simp [Except.map, bind, Except.bind, pure, Except.pure, eq_comm]
    · simp [Except.map, bind, Except.bind, pure, Except.pure, eq_comm]

theorem C54_monadic (e : DomEnv V) (d : SDom V O) (L L' : Option (MVal V O)) (R R' : MVal V O) :
    (PDom.monadic d).Accepts e L R L' R' ↔ L = none ∧ L' = none ∧ d.Accepts e R R' := by
  cases L with
  | some L => simp [PDom.Accepts, PDom.to]
  | none =>
    simp only [PDom.Accepts, PDom.to, SDom.Accepts]
    cases hr : d.to e R with
    | error f => simp [bind, Except.bind]
    | ok r =>
      obtain ⟨r, b⟩ := r
      cases b <;> simp [bind, Except.bind, pure, Except.pure, eq_comm]

theorem C54_dyadic (e : DomEnv V) (c : PDom V O) (L L' : Option (MVal V O)) (R R' : MVal V O) :
    (PDom.dyadic c).Accepts e L R L' R' ↔ L.isSome ∧ c.Accepts e L R L' R' := by
  cases L with
  | none => simp [PDom.Accepts, PDom.to]
  | some L => simp [PDom.Accepts, PDom.to]

/-! ### Combinations of single domains -/

theorem or_to (e : DomEnv V) (c1 c2 : SDom V O) (h1 : c1 ≠ .nil) (h2 : c2 ≠ .nil) (v : MVal V O) :
    (SDom.or c1 c2).to e v = (do
      let r ← c1.to e v
      if r.2 then return r
      else do
        let r ← c2.to e v
        if r.2 then return r else return (v, false)) := by
  rw [SDom.to.eq_def]
  split <;> rename_i h <;> first
    | (cases h; done)
    | (cases h; first | exact absurd rfl h1 | exact absurd rfl h2)
    | skip
  all_goals first | (cases h; rfl) | (rename_i a b c d; cases d; rfl)

/-- The disjunction of two domains: the second one is asked about the value as it was, not about what the first one made of it. -/
theorem C54_or (e : DomEnv V) (c1 c2 : SDom V O) (h1 : c1 ≠ .nil) (h2 : c2 ≠ .nil) (v w : MVal V O) :
    (SDom.or c1 c2).Accepts e v w ↔ c1.Accepts e v w ∨ (c1.Rejects e v ∧ c2.Accepts e v w) := by
  rw [SDom.Accepts, or_to e c1 c2 h1 h2]
  simp only [SDom.Accepts, SDom.Rejects]
  cases hl : c1.to e v with
  | error f => simp [bind, Except.bind]
  | ok l =>
    obtain ⟨l, b⟩ := l
    cases b
    · cases hr : c2.to e v with
      | error f => simp [bind, Except.bind]
      | ok r =>
        obtain ⟨r, b⟩ := r
        cases b <;> simp [bind, Except.bind, pure, Except.pure]
    · simp [bind, Except.bind, pure, Except.pure]

theorem C54_or_rejects (e : DomEnv V) (c1 c2 : SDom V O) (h1 : c1 ≠ .nil) (h2 : c2 ≠ .nil) (v w : MVal V O)
    (h : (SDom.or c1 c2).to e v = .ok (w, false)) : w = v ∧ c1.Rejects e v ∧ c2.Rejects e v := by
  rw [or_to e c1 c2 h1 h2] at h
  simp only [SDom.Rejects]
  cases hl : c1.to e v with
  | error f => simp [hl, bind, Except.bind] at h
  | ok l =>
    obtain ⟨l, b⟩ := l
    cases b
    · cases hr : c2.to e v with
      | error f => simp [hl, hr, bind, Except.bind] at h
      | ok r =>
        obtain ⟨r, b⟩ := r
        cases b
        · simp [hl, hr, bind, Except.bind, pure, Except.pure] at h
          exact ⟨h.symm, by simp, by simp⟩
        · simp [hl, hr, bind, Except.bind, pure, Except.pure] at h
    · simp [hl, bind, Except.bind, pure, Except.pure] at h

theorem not_to (e : DomEnv V) (c : SDom V O) (h : c ≠ .nil) (v : MVal V O) :
    (SDom.not c).to e v = (c.to e v).map fun r => (r.1, !r.2) := by
  cases c <;> first
    | exact absurd rfl h
    | (simp only [SDom.to.eq_18, bind, Except.bind, pure, Except.pure]; split <;> simp_all [Except.map])
    | (rw [SDom.to.eq_def]; simp only [bind, Except.bind, pure, Except.pure]; split <;> simp_all [Except.map])

theorem C54_not (e : DomEnv V) (c : SDom V O) (h : c ≠ .nil) (v : MVal V O) :
    ((∃ w, (SDom.not c).Accepts e v w) ↔ c.Rejects e v) ∧ ((SDom.not c).Rejects e v ↔ ∃ w, c.Accepts e v w) := by
  simp only [SDom.Accepts, SDom.Rejects, not_to e c h]
  cases c.to e v with
  | error f => simp [Except.map]
  | ok r => obtain ⟨r, b⟩ := r; cases b <;> simp [Except.map]

/-! ### Conversions keep the contents -/

theorem SameIdx.trans (e : DomEnv V) {x y z : UItem V O} (h : SameIdx e x y) (h' : SameIdx e y z) : SameIdx e x z := by
  rcases h with rfl | ⟨a, b, i, rfl, rfl, ha, hb⟩
  · exact h'
  · rcases h' with rfl | ⟨a', b', i', h1, rfl, ha', hb'⟩
    · exact .inr ⟨a, b, i, rfl, rfl, ha, hb⟩
    · cases h1
      rw [hb] at ha'
      cases ha'
      exact .inr ⟨a, b', i, rfl, rfl, ha, hb'⟩

theorem forall2_trans {R : UItem V O → UItem V O → Prop} (hR : ∀ x y z, R x y → R y z → R x z) {a b c : List (UItem V O)}
    (h : List.Forall₂ R a b) (h' : List.Forall₂ R b c) : List.Forall₂ R a c := by
  induction h generalizing c with
  | nil => cases h'; exact .nil
  | cons hx _ ih => cases h' with | cons hy ht => exact .cons (hR _ _ _ hx hy) (ih ht)

theorem SameContents.refl (e : DomEnv V) (v : MVal V O) : SameContents e v v :=
  ⟨List.forall₂_same.2 fun _ _ => .inl rfl, fun _ => rfl⟩

theorem SameContents.trans (e : DomEnv V) {u v w : MVal V O} (h : SameContents e u v) (h' : SameContents e v w) : SameContents e u w := by
  refine ⟨forall2_trans (R := SameIdx e) (fun _ _ _ a b => SameIdx.trans e a b) h.1 h'.1, fun hne => ?_⟩
  rw [h.2 hne]
  refine h'.2 fun hv => hne ?_
  have := h.1.length_eq
  rw [hv] at this
  exact List.eq_nil_of_length_eq_zero this

theorem indexes_same (e : DomEnv V) (he : ExactIdx e) (l : List (UItem V O)) (is : List Int) (h : e.indexes l = some is) :
    List.Forall₂ (SameIdx e) l (is.map fun i => .num (.int i)) := by
  induction l generalizing is with
  | nil => cases h; exact .nil
  | cons x xs ih =>
    simp only [DomEnv.indexes] at h
    split at h
    · cases h
    · rename_i i hi
      cases hx : e.indexes xs with
      | none => rw [hx] at h; cases h
      | some js =>
        rw [hx] at h
        cases h
        refine .cons ?_ (ih js hx)
        cases x with
        | num n => exact .inr ⟨n, .int i, i, rfl, rfl, hi, he.int i⟩
        | str s => cases hi
        | other t o => cases hi

theorem indexes_length (e : DomEnv V) (l : List (UItem V O)) (is : List Int) (h : e.indexes l = some is) : is.length = l.length := by
  induction l generalizing is with
  | nil => cases h; rfl
  | cons x xs ih =>
    simp only [DomEnv.indexes] at h
    split at h
    · cases h
    · cases hx : e.indexes xs with
      | none => rw [hx] at h; cases h
      | some js => rw [hx] at h; cases h; simp [ih js hx]

theorem toBools_same (e : DomEnv V) (he : ExactIdx e) (l bs : List (UItem V O)) (h : toBools l = some bs) : List.Forall₂ (SameIdx e) l bs := by
  induction l generalizing bs with
  | nil => cases h; exact .nil
  | cons x xs ih =>
    cases x with
    | str s => cases h
    | other t o => cases h
    | num n =>
      cases n with
      | bool b => cases h
      | num c v => cases h
      | int n =>
        simp only [toBools] at h
        split at h
        · cases h
        · rename_i hn
          cases hx : toBools xs with
          | none => rw [hx] at h; cases h
          | some js =>
            rw [hx] at h
            cases h
            refine .cons (.inr ⟨.int n, .bool _, n, rfl, rfl, he.int n, ?_⟩) (ih js hx)
            rw [he.bool]
            have : n = 0 ∨ n = 1 := by omega
            rcases this with rfl | rfl <;> rfl

theorem empty_same (e : DomEnv V) (a : UArr V O) (h : a.items.length = 0) : SameContents e (.array a) (emptyVal : MVal V O) := by
  have := List.eq_nil_of_length_eq_zero h
  refine ⟨?_, fun hne => absurd this hne⟩
  show List.Forall₂ _ a.items []
  rw [this]; exact .nil

theorem toIndexArr_same (e : DomEnv V) (he : ExactIdx e) (v w : MVal V O) (hv : v.Sound) (h : e.toIndexArr v = some w) : SameContents e v w ∧ w.Sound := by
  cases v with
  | scalar x =>
    simp only [DomEnv.toIndexArr] at h
    split at h
    · rename_i i hi
      cases h
      refine ⟨⟨?_, fun _ => rfl⟩, rfl⟩
      cases x with
      | num n => exact .cons (.inr ⟨n, .int i, i, rfl, rfl, hi, he.int i⟩) .nil
      | str s => cases hi
      | other t o => cases hi
    · cases h
  | array a =>
    simp only [DomEnv.toIndexArr] at h
    split at h
    · cases h; exact ⟨.refl e _, hv⟩
    split at h
    · rename_i h0; cases h; exact ⟨empty_same e a h0, rfl⟩
    split at h
    · rename_i l hl
      cases h
      refine ⟨⟨indexes_same e he _ _ hl, fun _ => rfl⟩, ?_⟩
      show (l.map _).length = _
      rw [List.length_map, indexes_length e _ _ hl]; exact hv
    · cases h

theorem toBoolArr_same (e : DomEnv V) (he : ExactIdx e) (v w : MVal V O) (hv : v.Sound) (h : e.toBoolArr v = .ok (some w)) : SameContents e v w ∧ w.Sound := by
  unfold DomEnv.toBoolArr at h
  split at h
  · cases h; exact ⟨.refl e _, hv⟩
  split at h
  · cases h
  · rename_i s l hi
    obtain ⟨h1, h2⟩ := toIndexArr_same e he _ _ hv hi
    split at h
    · rename_i bs hb
      cases h
      have := toBools_same e he _ _ hb
      refine ⟨h1.trans e ⟨this, fun _ => rfl⟩, ?_⟩
      show bs.length = _
      rw [← this.length_eq]; exact h2
    · cases h
  · cases h

theorem filter_ones (s : List Nat) (h : ∀ n ∈ s, n = 1) : s.filter (· ≠ 1) = [] := by
  rw [List.filter_eq_nil_iff]
  intro n hn
  simp [h n hn]

theorem size_one (s : List Nat) (h : size s = 1) : ∀ n ∈ s, n = 1 := by
  induction s with
  | nil => simp
  | cons a l ih =>
    have : a * size l = 1 := h
    have h1 := Nat.eq_one_of_mul_eq_one_right this
    have h2 := Nat.eq_one_of_mul_eq_one_left this
    intro n hn
    rcases List.mem_cons.1 hn with rfl | hn
    · first | exact h1 | exact h2
    · first | exact ih h2 n hn | exact ih h1 n hn

theorem foldl_max_mem (s : List Nat) (m : Nat) : s.foldl max m = m ∨ s.foldl max m ∈ s := by
  induction s generalizing m with
  | nil => exact .inl rfl
  | cons a l ih =>
    simp only [List.foldl_cons]
    rcases ih (max m a) with h | h
    · rw [h]
      by_cases hma : a ≤ m
      · exact .inl (by omega)
      · refine .inr ?_
        have : max m a = a := by omega
        rw [this]; simp
    · exact .inr (List.mem_cons_of_mem _ h)

/-- an axis as long as the array has elements: all other axes have length 1 -/
theorem filter_single (s : List Nat) (n : Nat) (hn : n ∈ s) (h : size s = n) (h0 : n ≠ 0) : s.filter (· ≠ 1) = [n].filter (· ≠ 1) := by
  induction s with
  | nil => cases hn
  | cons a l ih =>
    have hs : a * size l = n := h
    by_cases ha : a = n
    · subst ha
      have : size l = 1 := Nat.eq_of_mul_eq_mul_left (Nat.pos_of_ne_zero h0) (by rw [hs, Nat.mul_one])
      rw [List.filter_cons, filter_ones l (size_one l this)]
      by_cases h1 : a = 1 <;> simp [h1]
    · have hl : n ∈ l := by
        rcases List.mem_cons.1 hn with h | h
        · exact absurd h.symm ha
        · exact h
      have hdvd : n ∣ size l := by
        clear ih hs h hn
        induction l with
        | nil => cases hl
        | cons b l ih =>
          rcases List.mem_cons.1 hl with rfl | hl
          · exact ⟨size l, rfl⟩
          · exact Nat.dvd_trans (ih hl) ⟨b, Nat.mul_comm _ _⟩
      obtain ⟨k, hk⟩ := hdvd
      have h1 : a * k = 1 := by
        have : n * (a * k) = n * 1 := by
          rw [Nat.mul_one, Nat.mul_left_comm, ← hk]; exact hs
        exact Nat.eq_of_mul_eq_mul_left (Nat.pos_of_ne_zero h0) this
      have ha1 : a = 1 := by
        have := Nat.eq_one_of_mul_eq_one_right h1
        have h2 := Nat.eq_one_of_mul_eq_one_left h1
        first | exact this | exact h2
      subst ha1
      rw [List.filter_cons, if_neg (by simp)]
      refine ih hl ?_
      omega

theorem unifyArray_same (e : DomEnv V) (a : UArr V O) (hw : a.items.length = prod a.shape) :
    (e.t.unifyArray e.uni a).items = a.items ∧ (e.t.unifyArray e.uni a).shape = a.shape := by
  have := C55_preserves e.t e.uni a false hw
  exact ⟨this.2.2 rfl, this.1⟩

theorem squeezeVec_same (e : DomEnv V) (a b : UArr V O) (hw : a.items.length = prod a.shape) (h0 : a.items.length ≠ 0) (h : e.squeezeVec a = some b) :
    SameContents e (.array a) (.array b) ∧ (MVal.array b).Sound := by
  unfold DomEnv.squeezeVec at h
  split at h
  · cases h
  · rename_i hm
    have hm : a.shape.foldl max 0 = a.items.length := by omega
    cases h
    obtain ⟨h1, h2⟩ := unifyArray_same e (⟨.mixed, [a.items.length], a.items⟩ : UArr V O) (by simp [prod])
    refine ⟨⟨?_, fun _ => ?_⟩, ?_⟩
    · show List.Forall₂ _ a.items (UArr.items _)
      rw [h1]; exact (SameContents.refl e (.array a)).1
    · show a.shape.filter _ = List.filter _ (UArr.shape _)
      rw [h2]
      have hne : a.shape ≠ [] := by rintro hs; rw [hs] at hw; exact h0 hw
      refine filter_single _ _ ?_ ?_ h0
      · rcases foldl_max_mem a.shape 0 with h | h
        · omega
        · rwa [hm] at h
      · rw [← prod_eq_size hne]; exact hw.symm
    · show (UArr.items _).length = prod (UArr.shape _)
      rw [h1, h2]; simp [prod]

theorem single_axes (a : UArr V O) (x : UItem V O) (hw : (MVal.array a).Sound) (h : a.items = [x]) : a.shape.filter (· ≠ 1) = [] := by
  have hw : a.items.length = prod a.shape := hw
  rw [h] at hw
  have hne : a.shape ≠ [] := by rintro hs; rw [hs] at hw; cases hw
  rw [prod_eq_size hne] at hw
  exact filter_ones _ (size_one _ hw.symm)

/-- what `To` does with the value of a domain that is asked after another one -/
theorem SDom.to_same (e : DomEnv V) (he : ExactIdx e) : ∀ (d : SDom V O) (v w : MVal V O) (b : Bool), v.Sound → d.to e v = .ok (w, b) →
    SameContents e v w ∧ w.Sound
  | .nil, v, w, b, hv, h => by cases h; exact ⟨.refl e _, hv⟩
  | .test p c, v, w, b, hv, h => by
    simp only [SDom.to] at h
    split at h
    · exact SDom.to_same e he c v w b hv h
    · cases h; exact ⟨.refl e _, hv⟩
  | .func p c, v, w, b, hv, h => by
    simp only [SDom.to, bind, Except.bind, pure, Except.pure] at h
    split at h
    · split at h
      · cases h
      · rename_i r hr
        split at h
        · cases h; exact SDom.to_same e he c v _ _ hv hr
        · cases h; exact ⟨.refl e _, hv⟩
    · cases h; exact ⟨.refl e _, hv⟩
  | .array conv c, v, w, b, hv, h => by
    simp only [SDom.to] at h
    split at h
    · rename_i u hu
      have : SameContents e v u ∧ u.Sound := by
        cases v with
        | array a => cases hu; exact ⟨.refl e _, hv⟩
        | scalar x =>
          simp only [DomEnv.toArr] at hu
          split at hu
          · cases hu
          · cases hu
            obtain ⟨h1, h2⟩ := unifyArray_same e (oneVector x) rfl
            refine ⟨⟨?_, fun _ => ?_⟩, ?_⟩
            · show List.Forall₂ _ [x] (UArr.items _)
              rw [h1]; exact .cons (.inl rfl) .nil
            · show [] = List.filter _ (UArr.shape _)
              rw [h2]; rfl
            · show (UArr.items _).length = prod (UArr.shape _)
              rw [h1, h2]; rfl
      obtain ⟨h1, h2⟩ := SDom.to_same e he c u w b this.2 h
      exact ⟨this.1.trans e h1, h2⟩
    · cases h; exact ⟨.refl e _, hv⟩
  | .vector conv c, v, w, b, hv, h => by
    have hstep : ∀ u k, e.toVec conv v = some (u, k) → SameContents e v u ∧ u.Sound := by
      intro u k hu
      cases v with
      | scalar x =>
        simp only [DomEnv.toVec] at hu
        split at hu
        · cases hu
        · cases hu
          exact ⟨⟨.cons (.inl rfl) .nil, fun _ => rfl⟩, rfl⟩
      | array a =>
        simp only [DomEnv.toVec] at hu
        split at hu
        · cases hu; exact ⟨.refl e _, hv⟩
        split at hu
        · cases hu
        split at hu
        · rename_i h0; cases hu; exact ⟨empty_same e a h0, rfl⟩
        · rename_i h0
          cases hs : e.squeezeVec a with
          | none => rw [hs] at hu; cases hu
          | some b =>
            rw [hs] at hu; cases hu
            exact squeezeVec_same e a b hv h0 hs
    simp only [SDom.to] at h
    split at h
    · rename_i u hu
      obtain ⟨h1, h2⟩ := SDom.to_same e he c u w b (hstep u true hu).2 h
      exact ⟨(hstep u true hu).1.trans e h1, h2⟩
    · rename_i u hu
      cases h; exact hstep _ _ hu
    · cases h; exact ⟨.refl e _, hv⟩
  | .scalar conv c, v, w, b, hv, h => by
    simp only [SDom.to] at h
    split at h
    · rename_i u hu
      have : SameContents e v u ∧ u.Sound := by
        cases v with
        | scalar x => cases hu; exact ⟨.refl e _, hv⟩
        | array a =>
          simp only [toScalar] at hu
          split at hu
          · cases hu
          split at hu
          · rename_i x hx
            cases hu
            refine ⟨⟨?_, fun _ => single_axes a x hv hx⟩, trivial⟩
            show List.Forall₂ _ a.items _
            rw [hx]; exact .cons (.inl rfl) .nil
          · cases hu
      obtain ⟨h1, h2⟩ := SDom.to_same e he c u w b this.2 h
      exact ⟨this.1.trans e h1, h2⟩
    · cases h; exact ⟨.refl e _, hv⟩
  | .number conv c, v, w, b, hv, h => by
    simp only [SDom.to] at h
    split at h
    · rename_i u hu
      have : SameContents e v u ∧ u.Sound := by
        cases v with
        | scalar x =>
          cases x with
          | num n => cases hu; exact ⟨.refl e _, hv⟩
          | str s => cases hu
          | other t o => cases hu
        | array a =>
          simp only [toNum] at hu
          split at hu
          · cases hu
          split at hu
          · rename_i x hx
            cases hu
            refine ⟨⟨?_, fun _ => single_axes a _ hv hx⟩, trivial⟩
            show List.Forall₂ _ a.items _
            rw [hx]; exact .cons (.inl rfl) .nil
          · cases hu
      obtain ⟨h1, h2⟩ := SDom.to_same e he c u w b this.2 h
      exact ⟨this.1.trans e h1, h2⟩
    · cases h; exact ⟨.refl e _, hv⟩
  | .index c, v, w, b, hv, h => by
    have hstep : ∀ u k, e.toIdx v = some (u, k) → SameContents e v u ∧ u.Sound := by
      intro u k hu
      unfold DomEnv.toIdx at hu
      split at hu
      · rename_i b
        cases hu
        exact ⟨⟨.cons (.inr ⟨.bool b, .int _, _, rfl, rfl, he.bool b, he.int _⟩) .nil, fun _ => rfl⟩, trivial⟩
      · cases hu; exact ⟨.refl e _, trivial⟩
      · rename_i n _ _
        cases hn : e.toIndex n with
        | none => rw [hn] at hu; cases hu
        | some i =>
          rw [hn] at hu; cases hu
          exact ⟨⟨.cons (.inr ⟨n, .int i, i, rfl, rfl, hn, he.int i⟩) .nil, fun _ => rfl⟩, trivial⟩
      · cases hu
    simp only [SDom.to] at h
    split at h
    · rename_i u hu
      obtain ⟨h1, h2⟩ := SDom.to_same e he c u w b (hstep u true hu).2 h
      exact ⟨(hstep u true hu).1.trans e h1, h2⟩
    · rename_i u hu
      cases h; exact hstep _ _ hu
    · cases h; exact ⟨.refl e _, hv⟩
  | .indexArray conv c, v, w, b, hv, h => by
    simp only [SDom.to] at h
    split at h
    · rename_i u hu
      have : SameContents e v u ∧ u.Sound := by
        unfold DomEnv.toIdxArr at hu
        split at hu
        · cases hu; exact ⟨.refl e _, hv⟩
        split at hu
        · cases hu
        · exact toIndexArr_same e he _ _ hv hu
      obtain ⟨h1, h2⟩ := SDom.to_same e he c u w b this.2 h
      exact ⟨this.1.trans e h1, h2⟩
    · cases h; exact ⟨.refl e _, hv⟩
  | .boolArray c, v, w, b, hv, h => by
    simp only [SDom.to, bind, Except.bind, pure, Except.pure] at h
    split at h
    · cases h
    · rename_i r hr
      split at h
      · rename_i u
        have := toBoolArr_same e he _ _ hv hr
        obtain ⟨h1, h2⟩ := SDom.to_same e he c u w b this.2 h
        exact ⟨this.1.trans e h1, h2⟩
      · cases h; exact ⟨.refl e _, hv⟩
  | .strings conv c, v, w, b, hv, h => by
    simp only [SDom.to] at h
    split at h
    · rename_i u hu
      have : SameContents e v u ∧ u.Sound := by
        cases v with
        | scalar x =>
          cases x with
          | str s =>
            simp only [toStrings] at hu
            split at hu
            · cases hu
            · cases hu; exact ⟨⟨.cons (.inl rfl) .nil, fun _ => rfl⟩, rfl⟩
          | num n => cases hu
          | other t o => cases hu
        | array a =>
          simp only [toStrings] at hu
          split at hu
          · cases hu; exact ⟨.refl e _, hv⟩
          split at hu
          · cases hu
          split at hu
          · cases hu; exact ⟨⟨(SameContents.refl e (.array a)).1, fun _ => rfl⟩, hv⟩
          · cases hu
      obtain ⟨h1, h2⟩ := SDom.to_same e he c u w b this.2 h
      exact ⟨this.1.trans e h1, h2⟩
    · cases h; exact ⟨.refl e _, hv⟩
  | .not c, v, w, b, hv, h => by
    by_cases hc : c = .nil
    · subst hc; cases h; exact ⟨.refl e _, hv⟩
    · rw [not_to e c hc] at h
      cases hr : c.to e v with
      | error f => rw [hr] at h; cases h
      | ok r => rw [hr] at h; cases h; exact SDom.to_same e he c v _ _ hv hr
  | .or c1 c2, v, w, b, hv, h => by
    by_cases h1 : c1 = .nil
    · subst h1; cases h; exact ⟨.refl e _, hv⟩
    by_cases h2 : c2 = .nil
    · subst h2
      have : (SDom.or c1 .nil).to e v = .ok (v, false) := by
        cases c1 <;> first | exact absurd rfl h1 | rfl
      rw [this] at h
      cases h; exact ⟨.refl e _, hv⟩
    · rw [or_to e c1 c2 h1 h2] at h
      cases hr : c1.to e v with
      | error f => rw [hr] at h; cases h
      | ok r =>
        rw [hr] at h
        simp only [bind, Except.bind, pure, Except.pure] at h
        split at h
        · cases h; exact SDom.to_same e he c1 v _ _ hv hr
        cases hr' : c2.to e v with
        | error f => rw [hr'] at h; cases h
        | ok r =>
          rw [hr'] at h
          simp only at h
          split at h
          · cases h; exact SDom.to_same e he c2 v _ _ hv hr'
          · cases h; exact ⟨.refl e _, hv⟩

/-- Whatever a domain makes of a value, it has the same contents. -/
theorem C54_contents (e : DomEnv V) (he : ExactIdx e) (d : SDom V O) (v w : MVal V O) (hv : v.Sound) (h : d.Accepts e v w) :
    SameContents e v w ∧ w.Sound := SDom.to_same e he d v w true hv h

/-- … and so for a pair of arguments. -/
theorem C54_pair_contents (e : DomEnv V) (he : ExactIdx e) (d : PDom V O) (L R : MVal V O) (L' : Option (MVal V O)) (R' : MVal V O)
    (hL : L.Sound) (hR : R.Sound) (h : d.Accepts e (some L) R L' R') :
    (∃ l, L' = some l ∧ SameContents e L l) ∧ SameContents e R R' := by
  induction d with
  | any => cases h; exact ⟨⟨L, rfl, .refl e _⟩, .refl e _⟩
  | both c =>
    obtain ⟨l, rfl, h1, h2⟩ := (C54_both e c L R L' R').1 h
    exact ⟨⟨l, rfl, (C54_contents e he c _ _ hL h1).1⟩, (C54_contents e he c _ _ hR h2).1⟩
  | either c =>
    by_cases hc : c = .nil
    · subst hc; cases h
    · rcases (C54_either e c hc L R L' R').1 h with ⟨l, rfl, rfl, h1⟩ | ⟨rfl, _, h2⟩
      · exact ⟨⟨l, rfl, (C54_contents e he c _ _ hL h1).1⟩, .refl e _⟩
      · exact ⟨⟨L, rfl, .refl e _⟩, (C54_contents e he c _ _ hR h2).1⟩
  | split dl dr =>
    obtain ⟨l, rfl, h1, h2⟩ := (C54_split e dl dr L R L' R').1 h
    exact ⟨⟨l, rfl, (C54_contents e he _ _ _ hL h1).1⟩, (C54_contents e he _ _ _ hR h2).1⟩
  | monadic c => obtain ⟨h, _⟩ := (C54_monadic e c (some L) L' R R').1 h; cases h
  | dyadic c ih => exact ih ((C54_dyadic e c (some L) L' R R').1 h).2
  | monadicOp c =>
    rw [PDom.Accepts, PDom.to, to?_some] at h
    cases hl : c.to e L with
    | error f => rw [hl] at h; cases h
    | ok r =>
      obtain ⟨r, b⟩ := r
      rw [hl] at h
      cases b
      · cases h
      · cases h; exact ⟨⟨r, rfl, (C54_contents e he _ _ _ hL hl).1⟩, .refl e _⟩
  | dyadicOp c ih => exact ih h

/-! ### What the elementary domains accept -/

/-- `ToScalar` accepts values with one element. -/
theorem C54_to_scalar (e : DomEnv V) (v w : MVal V O) : (SDom.scalar true .nil).Accepts e v w ↔ ∃ x, v.contents = [x] ∧ w = .scalar x := by
  cases v with
  | scalar x => simp [SDom.Accepts, SDom.to, toScalar, MVal.contents, eq_comm]
  | array a =>
    simp only [SDom.Accepts, SDom.to, toScalar, MVal.contents]
    obtain ⟨r, s, items⟩ := a
    match items with
    | [] => simp
    | [x] => simp [SDom.to, eq_comm]
    | x :: y :: l => simp

/-- `ToNumber` accepts values with one element, if it is a number. -/
theorem C54_to_number (e : DomEnv V) (v w : MVal V O) : (SDom.number true .nil).Accepts e v w ↔ ∃ n, v.contents = [.num n] ∧ w = .scalar (.num n) := by
  cases v with
  | scalar x => cases x <;> simp [SDom.Accepts, SDom.to, toNum, MVal.contents, eq_comm]
  | array a =>
    simp only [SDom.Accepts, SDom.to, toNum, MVal.contents]
    obtain ⟨r, s, items⟩ := a
    match items with
    | [] => simp
    | [x] => cases x <;> simp [SDom.to, eq_comm]
    | x :: y :: l => cases x <;> simp

theorem indexes_iff (e : DomEnv V) (l : List (UItem V O)) (is : List Int) : e.indexes l = some is ↔ l.map e.itemIndex = is.map some := by
  induction l generalizing is with
  | nil => cases is <;> simp [DomEnv.indexes]
  | cons x xs ih =>
    simp only [DomEnv.indexes]
    cases is with
    | nil => split <;> simp
    | cons i is =>
      rw [List.map_cons, List.map_cons, List.cons.injEq, ← ih is]
      split
      · rename_i h; simp [h]
      · rename_i j h
        cases hx : e.indexes xs <;> simp [h, hx]

/-- `ToIndexArray` accepts arrays (and single values) whose elements all are indexes. -/
theorem C54_to_indexes (e : DomEnv V) (he : ExactIdx e) (v : MVal V O) (hi : ∀ a, v = .array a → a.rep = .compact .int → ∀ x ∈ a.items, x.type = .int) :
    (∃ w, (SDom.indexArray true .nil).Accepts e v w) ↔ ∀ x ∈ v.contents, ∃ i, e.itemIndex x = some i := by
  have hto : (SDom.indexArray true .nil).to e v = match e.toIndexArr v with | some w => .ok (w, true) | none => .ok (v, false) := by
    simp only [SDom.to, DomEnv.toIdxArr]
    split
    · rename_i h
      split at h
      · cases h; simp [DomEnv.toIndexArr]
      · simp at h; rw [h]
    · rename_i h
      split at h
      · cases h
      · simp at h; rw [h]
  have key : (∃ w, (SDom.indexArray true .nil).Accepts e v w) ↔ (e.toIndexArr v).isSome := by
    simp only [SDom.Accepts, hto]
    cases e.toIndexArr v <;> simp
  rw [key]
  cases v with
  | scalar x =>
    simp only [DomEnv.toIndexArr, MVal.contents, List.mem_singleton, forall_eq]
    cases e.itemIndex x <;> simp
  | array a =>
    simp only [DomEnv.toIndexArr, MVal.contents]
    by_cases hr : a.rep = .compact .int
    · rw [if_pos hr]
      simp only [Option.isSome_some, true_iff]
      intro x hx
      have := hi a rfl hr x hx
      cases x with
      | num n =>
        cases n with
        | int n => exact ⟨n, he.int n⟩
        | bool b => cases this
        | num c v => cases this
      | str s => cases this
      | other t o => cases this
    rw [if_neg hr]
    by_cases h0 : a.items.length = 0
    · rw [if_pos h0, List.eq_nil_of_length_eq_zero h0]; simp
    rw [if_neg h0]
    have : (e.indexes a.items).isSome ↔ ∀ x ∈ a.items, ∃ i, e.itemIndex x = some i := by
      constructor
      · intro h x hx
        obtain ⟨is, h⟩ := Option.isSome_iff_exists.1 h
        rw [indexes_iff] at h
        have : e.itemIndex x ∈ is.map some := by rw [← h]; exact List.mem_map_of_mem hx
        obtain ⟨i, _, h⟩ := List.mem_map.1 this
        exact ⟨i, h.symm⟩
      · intro h
        generalize a.items = l at h
        induction l with
        | nil => rfl
        | cons x xs ih =>
          obtain ⟨i, hx⟩ := h x (by simp)
          have := ih fun y hy => h y (by simp [hy])
          simp only [DomEnv.indexes, hx]
          rw [Option.isSome_map]; exact this
    rw [← this]
    cases e.indexes a.items <;> simp

/-- `ToVector` accepts single values, empty arrays, and arrays with at most one axis longer than 1; the result is a vector (or empty). -/
theorem C54_to_vector (e : DomEnv V) (v : MVal V O) (hv : v.Sound) :
    (∃ w, (SDom.vector true .nil).Accepts e v w) ↔ v.contents = [] ∨ (v.axes.filter (· ≠ 1)).length ≤ 1 := by
  cases v with
  | scalar x => simp [SDom.Accepts, SDom.to, DomEnv.toVec, MVal.contents, MVal.axes]
  | array a =>
    have hv : a.items.length = prod a.shape := hv
    have key : (∃ w, (SDom.vector true .nil).Accepts e (.array a) w) ↔ (e.toVec true (.array a)).isSome := by
      simp only [SDom.Accepts, SDom.to]
      rcases e.toVec true (.array a) with _ | ⟨w, b⟩
      · simp
      · cases b <;> simp
    rw [key]
    simp only [DomEnv.toVec, MVal.contents, MVal.axes]
    by_cases h1 : a.shape.length = 1
    · rw [if_pos h1]
      simp only [Option.isSome_some, true_iff]
      exact .inr (Nat.le_trans (List.length_filter_le _ _) (by omega))
    rw [if_neg h1, if_neg (by simp)]
    by_cases h0 : a.items.length = 0
    · rw [if_pos h0]
      simp [List.eq_nil_of_length_eq_zero h0]
    rw [if_neg h0, Option.isSome_map]
    have hne : a.shape ≠ [] := by rintro hs; rw [hs] at hv; exact h0 hv
    have hsz : size a.shape = a.items.length := by rw [← prod_eq_size hne]; exact hv.symm
    have hnil : a.items ≠ [] := by rintro h; rw [h] at h0; exact h0 rfl
    simp only [hnil, false_or]
    constructor
    · intro h
      obtain ⟨b, h⟩ := Option.isSome_iff_exists.1 h
      unfold DomEnv.squeezeVec at h
      split at h
      · cases h
      · rename_i hm
        have hm : a.shape.foldl max 0 = a.items.length := by omega
        have hmem : a.items.length ∈ a.shape := by
          rcases foldl_max_mem a.shape 0 with h | h
          · omega
          · rwa [hm] at h
        rw [filter_single _ _ hmem hsz h0]
        exact List.length_filter_le _ _
    · intro h
      unfold DomEnv.squeezeVec
      rw [if_neg]
      · rfl
      simp only [ne_eq, Decidable.not_not]
      rw [← hsz] at h0 ⊢
      have hfl : ∀ (l : List Nat) (m : Nat), size l ≠ 0 → m ≤ 1 → (l.filter (· ≠ 1)).length ≤ 1 → l ≠ [] → l.foldl max m = size l := by
        clear h hne h0 hsz hnil hv key h1
        intro l
        induction l with
        | nil => intro m _ _ _ h; exact absurd rfl h
        | cons b l ih =>
          intro m h0 hm h _
          have hb : size (b :: l) = b * size l := rfl
          rw [hb] at h0 ⊢
          have hb0 : b ≠ 0 := by rintro rfl; simp at h0
          have hl0 : size l ≠ 0 := by intro h'; rw [h'] at h0; simp at h0
          rw [List.foldl_cons]
          by_cases b1 : b = 1
          · subst b1
            have hm1 : max m 1 = 1 := by omega
            rw [hm1, Nat.one_mul]
            by_cases hl : l = []
            · subst hl; rfl
            · exact ih 1 hl0 (by omega) (by simpa [List.filter_cons] using h) hl
          · have hmb : max m b = b := by omega
            have hl : l.filter (· ≠ 1) = [] := by
              rw [List.filter_cons, if_pos (by simpa using b1)] at h
              exact List.eq_nil_of_length_eq_zero (by simpa using h)
            rw [List.filter_eq_nil_iff] at hl
            have hl : ∀ n ∈ l, n = 1 := fun n hn => by simpa using hl n hn
            have hs1 : ∀ l : List Nat, (∀ n ∈ l, n = 1) → size l = 1 ∧ l.foldl max b = b := by
              intro l hl
              induction l with
              | nil => exact ⟨rfl, rfl⟩
              | cons c l ih =>
                have := hl c (by simp)
                subst this
                obtain ⟨h1, h2⟩ := ih fun n hn => hl n (by simp [hn])
                refine ⟨by simp [size, h1], ?_⟩
                rw [List.foldl_cons, show max b 1 = b by omega, h2]
            rw [hmb, (hs1 l hl).1, (hs1 l hl).2, Nat.mul_one]
      exact hfl a.shape 0 h0 (by omega) h hne

/-! ### What is not kept -/

def demoDom : DomEnv Int := ⟨demoTower, fun _ => false, fun | .bool b => some (if b then 1 else 0) | .int n => some n | .num _ v => some v⟩

/-- the domain of strings -/
def isStr : SDom Int Unit := .test (fun | .scalar (.str _) => true | _ => false) .nil

/-- `Not` hands on what its rejecting child has converted: Not(ToArray(IsString)) accepts the number 5, as a vector. -/
theorem C54_not_leaks : (SDom.not (.array true isStr)).Accepts demoDom (.scalar (.num (.int 5))) (.array ⟨.mixed, [1], [.num (.int 5)]⟩) := rfl

/-- A rejecting single domain may hand on a converted value as well (its callers drop it). -/
theorem C54_rejected_converted : (SDom.array true isStr).to demoDom (.scalar (.num (.int 5))) = .ok (.array ⟨.mixed, [1], [.num (.int 5)]⟩, false) := rfl

/-- An empty array is accepted by ToVector whatever its child says. -/
theorem C54_empty_ignores_child (e : DomEnv V) (s : List Nat) (hs : s.length ≠ 1) (c : SDom V O) :
    (SDom.vector true c).Accepts e (.array ⟨.mixed, s, []⟩) emptyVal := by
  simp [SDom.Accepts, SDom.to, DomEnv.toVec, hs]

/-- ToBoolArray panics on the empty array. -/
theorem C54_bool_empty (e : DomEnv V) (c : SDom V O) : (SDom.boolArray c).to e (.array ⟨.empty, [], []⟩) = .error .panic := by
  simp [SDom.to, DomEnv.toBoolArr, DomEnv.toIndexArr, emptyVal, bind, Except.bind]

/-! ### Examples -/

example : ExactIdx demoDom := ⟨fun _ => rfl, fun _ => rfl⟩
example : (PDom.dyadic (.split (.indexArray true .nil) (.array true .nil)) : PDom Int Unit).Accepts demoDom (some (.array ⟨.mixed, [2, 1], [.num (.num 1 3), .num (.bool true)]⟩))
    (.scalar (.str "a")) (some (.array ⟨.compact .int, [2, 1], [.num (.int 3), .num (.int 1)]⟩)) (.array ⟨.compact .str, [1], [.str "a"]⟩) := rfl
example : (SDom.or (.array true isStr) (.scalar true .nil)).Accepts demoDom (.scalar (.num (.int 5))) (.scalar (.num (.int 5))) := rfl
example : (SDom.vector true .nil : SDom Int Unit).Accepts demoDom (.array ⟨.mixed, [1, 2, 1], [.str "a", .num (.int 5)]⟩) (.array ⟨.mixed, [2], [.str "a", .num (.int 5)]⟩) := rfl
example : (MVal.array (⟨.mixed, [1, 2, 1], [.str "a", .num (.int 5)]⟩ : UArr Int Unit)).Sound := rfl

end Iv

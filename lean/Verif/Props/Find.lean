import Verif.Model.Match
import Verif.Lemmas.Reshape
import Verif.Lemmas.TakeDrop
import Verif.Lemmas.Replicate
/-
C57: find.
-/
namespace Iv
variable {α : Type}

/-- Leading axes of length 1 up to the given rank. -/
def padShape (rank : Nat) (s : List Nat) : List Nat := List.replicate (rank - s.length) 1 ++ s

/-- `L`, with leading axes of length 1, lies inside of an array of shape `rs` if it starts at the position `p`. -/
def FitsAt (ls rs p : List Nat) : Prop := ∀ k, k < rs.length → p.getD k 0 + ls.getD k 0 ≤ rs.getD k 0

/-- A copy of `L` starts at position `p` of `R`: for every element of `L` (with leading axes of length 1) there is an equal element of `R`, at
the same offset from `p`. -/
def OccursAt (P : α → α → Prop) (l r : Arr α) (p : List Nat) : Prop :=
  ∀ q v, (⟨padShape r.shape.length l.shape, l.data⟩ : Arr α).get? q = some v → ∃ w, r.get? (List.zipWith (· + ·) p q) = some w ∧ P v w

theorem flat_add (s p q : List Nat) (hp : p.length = s.length) (hq : q.length = s.length) :
    flat s (List.zipWith (· + ·) p q) = flat s p + flat s q := by
  induction s generalizing p q with
  | nil => cases p <;> cases q <;> simp_all [flat]
  | cons n s ih =>
    cases p with
    | nil => simp at hp
    | cons a p =>
      cases q with
      | nil => simp at hq
      | cons b q =>
        simp only [List.zipWith_cons_cons, flat]
        rw [ih p q (by simpa using hp) (by simpa using hq), Nat.add_mul]
        omega

theorem zero_unflat (s : List Nat) : s.map (fun _ => 0) = unflat s 0 := by
  induction s with
  | nil => rfl
  | cons n s ih => simp [unflat, ih]

theorem flat_mono (ls rs q : List Nat) (hl : ls.length = rs.length) (h : ∀ k, k < rs.length → ls.getD k 0 ≤ rs.getD k 0) : flat ls q ≤ flat rs q := by
  induction ls generalizing rs q with
  | nil => simp [flat]
  | cons n ls ih =>
    cases rs with
    | nil => simp at hl
    | cons m rs =>
      cases q with
      | nil => simp [flat]
      | cons i q =>
        simp only [flat]
        have h' : ∀ k, k < rs.length → ls.getD k 0 ≤ rs.getD k 0 := fun k hk => by simpa using h (k + 1) (by simpa using hk)
        have hs : ∀ (a b : List Nat), a.length = b.length → (∀ k, k < b.length → a.getD k 0 ≤ b.getD k 0) → size a ≤ size b := by
          intro a
          induction a with
          | nil => intro b hb _; cases b <;> simp_all
          | cons x a iha =>
            intro b hb hk
            cases b with
            | nil => simp at hb
            | cons y b =>
              simp only [size]
              exact Nat.mul_le_mul (by simpa using hk 0 (by simp)) (iha b (by simpa using hb) (fun k h => by simpa using hk (k + 1) (by simpa using h)))
        exact Nat.add_le_add (Nat.mul_le_mul (Nat.le_refl _) (hs ls rs (by simpa using hl) h')) (ih rs q (by simpa using hl) h')

/-- the index of an element of a copy that fits -/
theorem fits_inB (ls rs p q : List Nat) (hl : ls.length = rs.length) (hp : p.length = rs.length) (hf : FitsAt ls rs p) (hq : InB ls q) :
    InB rs (List.zipWith (· + ·) p q) := by
  induction rs generalizing ls p q with
  | nil => cases ls <;> cases p <;> cases q <;> simp_all [InB]
  | cons m rs ih =>
    cases ls with
    | nil => simp at hl
    | cons n ls =>
      cases p with
      | nil => simp at hp
      | cons a p =>
        cases q with
        | nil => simp [InB] at hq
        | cons b q =>
          obtain ⟨h1, h2⟩ := hq
          refine ⟨?_, ih ls p q (by simpa using hl) (by simpa using hp) (fun k hk => by simpa using hf (k + 1) (by simpa using hk)) h2⟩
          have := hf 0 (by simp)
          simp at this
          show a + b < m
          omega

theorem findAt_spec (feq : α → α → Res Bool) (P : α → α → Prop) (ls rs : List Nat) (l r : List α) (hl : ls.length = rs.length)
    (hll : l.length = size ls) (i : Nat) (hin : ∀ j, j < l.length → i + flat rs (unflat ls j) < r.length)
    (hfeq : ∀ x ∈ l, ∀ y ∈ r, ∃ b, feq x y = .ok b ∧ (b = true ↔ P x y)) (xs : List α) (k : Nat) (hk : k + xs.length = l.length) (hx : l.drop k = xs)
    (idx : List Nat) (hidx : xs ≠ [] → idx = unflat ls k) :
    ∃ b, findAt feq (strides rs) ls r i xs idx = .ok b ∧
      (b = true ↔ ∀ j, k ≤ j → (hj : j < l.length) → P l[j] (r[i + flat rs (unflat ls j)]'(hin j hj))) := by
  induction xs generalizing k idx with
  | nil => exact ⟨true, rfl, by simp; intro j h1 h2; simp at hk; omega⟩
  | cons x xs ih =>
    have hk' : k < l.length := by simp at hk; omega
    have hxe : l[k] = x := by
      have := congrArg (·[0]?) hx
      simp at this
      rw [List.getElem?_eq_getElem hk'] at this
      exact Option.some.inj this
    rw [findAt, hidx (by simp), icIndex_strides (by rw [unflat_length, hl]), sliceAt_ok (hin k hk')]
    obtain ⟨b, e, hb⟩ := hfeq l[k] (List.getElem_mem _) (r[i + flat rs (unflat ls k)]'(hin k hk')) (List.getElem_mem _)
    rw [← hxe]
    simp only [bind, Except.bind, e]
    cases b with
    | false =>
      refine ⟨false, rfl, ?_⟩
      simp only [Bool.false_eq_true, false_iff]
      intro h
      exact absurd (hb.2 (h k (Nat.le_refl _) hk')) (by simp)
    | true =>
      obtain ⟨b, e', hb'⟩ := ih (k + 1) (by simp at hk; omega) (by rw [← List.drop_drop, hx]; rfl) (incArrayIndex (unflat ls k) ls) (by
        intro hne
        rw [incArrayIndex_unflat (by omega), Nat.mod_eq_of_lt]
        have := List.length_pos_iff.2 hne
        simp at hk
        omega)
      refine ⟨b, e', ?_⟩
      rw [hb']
      constructor
      · intro h j h1 hj
        by_cases hjk : j = k
        · subst hjk; exact hb.1 rfl
        · exact h j (by omega) hj
      · intro h j h1 hj
        exact h j (by omega) hj

theorem findLoop_get (feq : α → α → Res Bool) (ic ls : List Nat) (l r : List α) (n i : Nat) (bs : List Bool) (h : findLoop feq ic ls l r n i = .ok bs) :
    bs.length = n ∧ ∀ k, k < n → ∃ b, bs[k]? = some b ∧
      findMark feq ic ls l r (i + k) = .ok b := by
  induction n generalizing i bs with
  | zero => cases h; exact ⟨rfl, fun k hk => absurd hk (by omega)⟩
  | succ n ih =>
    rw [findLoop] at h
    cases hb : findMark feq ic ls l r i with
    | error e => rw [hb] at h; cases h
    | ok b =>
      rw [hb] at h
      simp only [bind, Except.bind] at h
      cases hr : findLoop feq ic ls l r n (i + 1) with
      | error e => rw [hr] at h; cases h
      | ok bs' =>
        rw [hr] at h
        cases h
        obtain ⟨h1, h2⟩ := ih (i + 1) bs' hr
        refine ⟨by simp [h1], ?_⟩
        intro k hk
        cases k with
        | zero => exact ⟨b, rfl, hb⟩
        | succ k =>
          obtain ⟨b', e1, e2⟩ := h2 k (by omega)
          exact ⟨b', by simpa using e1, by rw [← e2, show i + (k + 1) = i + 1 + k by omega]⟩

theorem findLoop_ok (feq : α → α → Res Bool) (ic ls : List Nat) (l r : List α) (n i : Nat)
    (h : ∀ k, k < n → ∃ b, findMark feq ic ls l r (i + k) = .ok b) :
    ∃ bs, findLoop feq ic ls l r n i = .ok bs := by
  induction n generalizing i with
  | zero => exact ⟨[], rfl⟩
  | succ n ih =>
    obtain ⟨b, hb⟩ := h 0 (by omega)
    obtain ⟨bs, e⟩ := ih (i + 1) (fun k hk => by
      obtain ⟨b, hb⟩ := h (k + 1) (by omega)
      exact ⟨b, by rw [← hb, show i + 1 + k = i + (k + 1) by omega]⟩)
    simp only [Nat.add_zero] at hb
    exact ⟨b :: bs, by rw [findLoop, hb]; simp only [bind, Except.bind, e]; rfl⟩

theorem size_pad (n : Nat) (s : List Nat) : size (padShape n s) = size s := by
  unfold padShape
  rw [size_append]
  have : ∀ k, size (List.replicate k 1) = 1 := by
    intro k
    induction k with
    | zero => rfl
    | succ k ih => simp [List.replicate_succ, size, ih]
  rw [this, Nat.one_mul]

theorem findPad_ok (l : Arr α) (rank : Nat) (hw : l.data.length = size l.shape) (hn : l.shape ≠ []) :
    findPad l rank = .ok ⟨padShape rank l.shape, l.data⟩ := by
  unfold findPad
  split
  · simp only
    have : prod (List.replicate (rank - l.shape.length) 1 ++ l.shape) = l.data.length := by
      rw [prod_eq_size (by simp [hn]), hw]
      exact size_pad rank l.shape
    rw [this, forLoop_slice]
    rfl
  · unfold padShape
    rw [show rank - l.shape.length = 0 by omega]
    rfl

/-- What is known about the arguments: both have at least one axis, and every pair of elements can be compared. -/
structure FindArgs (feq : α → α → Res Bool) (P : α → α → Prop) (l r : Arr α) : Prop where
  wl : l.WF
  wr : r.WF
  nl : l.shape ≠ []
  nr : r.shape ≠ []
  feq : ∀ x ∈ l.data, ∀ y ∈ r.data, ∃ b, feq x y = .ok b ∧ (b = true ↔ P x y)

theorem pad_length {l r : List Nat} (h : ¬ l.length > r.length) : (padShape r.length l).length = r.length := by
  simp [padShape]; omega

/-- the code at one position -/
def findAtPos (feq : α → α → Res Bool) (l r : Arr α) (i : Nat) : Res Bool :=
  findMark feq (strides r.shape) (padShape r.shape.length l.shape) l.data r.data i

theorem findArr_eq {feq : α → α → Res Bool} {P : α → α → Prop} {l r : Arr α} (h : FindArgs feq P l r) (hr : ¬ l.shape.length > r.shape.length) :
    findArr feq (some l) (some r) = (do
      let d ← findLoop feq (strides r.shape) (padShape r.shape.length l.shape) l.data r.data (prod r.shape) 0
      return some ⟨r.shape, d⟩) := by
  simp only [findArr, Option.getD_some]
  rw [if_neg hr, findPad_ok l _ h.wl h.nl, newIdxConverter_ok h.nr]
  rfl

theorem fits_offset {feq : α → α → Res Bool} {P : α → α → Prop} {l r : Arr α} (h : FindArgs feq P l r) (hr : ¬ l.shape.length > r.shape.length)
    (p : List Nat) (hp : InB r.shape p) (hf : FitsAt (padShape r.shape.length l.shape) r.shape p) :
    (∀ j, j < l.data.length → flat r.shape p + flat r.shape (unflat (padShape r.shape.length l.shape) j) < r.data.length) ∧
      l.data.length ≤ r.data.length - flat r.shape p := by
  have hl := pad_length hr
  have hpl := hp.length_eq
  have hin : ∀ j, j < l.data.length → flat r.shape p + flat r.shape (unflat (padShape r.shape.length l.shape) j) < r.data.length := by
    intro j hj
    have hq : InB (padShape r.shape.length l.shape) (unflat (padShape r.shape.length l.shape) j) :=
      unflat_inB (by rw [size_pad, ← h.wl]; exact hj)
    have := flat_lt (fits_inB _ _ p _ hl (by omega) hf hq)
    rw [flat_add _ _ _ (by omega) (by rw [unflat_length, hl])] at this
    rw [h.wr]
    exact this
  refine ⟨hin, ?_⟩
  by_cases h0 : l.data.length = 0
  · omega
  · have h1 := hin (l.data.length - 1) (by omega)
    have h2 := flat_mono (padShape r.shape.length l.shape) r.shape (unflat (padShape r.shape.length l.shape) (l.data.length - 1)) hl (fun k hk => by
      have := hf k hk; omega)
    rw [flat_unflat (by rw [size_pad, ← h.wl]; omega)] at h2
    omega

theorem findAtPos_spec {feq : α → α → Res Bool} {P : α → α → Prop} {l r : Arr α} (h : FindArgs feq P l r) (hr : ¬ l.shape.length > r.shape.length)
    (p : List Nat) (hp : InB r.shape p) (hf : FitsAt (padShape r.shape.length l.shape) r.shape p) :
    ∃ b, findAtPos feq l r (flat r.shape p) = .ok b ∧ (b = true ↔ OccursAt P l r p) := by
  obtain ⟨hin, hle⟩ := fits_offset h hr p hp hf
  have hl := pad_length hr
  have hpl := hp.length_eq
  obtain ⟨b, e, hb⟩ := findAt_spec feq P (padShape r.shape.length l.shape) r.shape l.data r.data hl (by rw [size_pad]; exact h.wl) _ hin h.feq l.data 0
    (by simp) rfl ((padShape r.shape.length l.shape).map (fun _ => 0)) (fun _ => zero_unflat _)
  refine ⟨b, ?_, ?_⟩
  · unfold findAtPos findMark
    rw [if_neg (by omega)]
    exact e
  · rw [hb]
    constructor
    · intro hall q v hq
      have hqi : InB (padShape r.shape.length l.shape) q := by
        unfold Arr.get? at hq
        split at hq
        · assumption
        · cases hq
      rw [Arr.get?_of_inB hqi] at hq
      obtain ⟨hj, hv⟩ := List.getElem?_eq_some_iff.1 hq
      have hz := fits_inB _ _ p q hl (by omega) hf hqi
      have := hall _ (Nat.zero_le _) hj
      simp only [unflat_flat hqi] at this
      have hlt := flat_lt hz
      rw [flat_add _ _ _ (by omega) (by rw [hqi.length_eq, hl])] at hlt
      refine ⟨r.data[flat r.shape p + flat r.shape q]'(by rw [h.wr]; exact hlt), ?_, by rw [← hv]; exact this⟩
      rw [Arr.get?_of_inB hz, flat_add _ _ _ (by omega) (by rw [hqi.length_eq, hl]), List.getElem?_eq_getElem]
    · intro hocc j _ hj
      have hqi : InB (padShape r.shape.length l.shape) (unflat (padShape r.shape.length l.shape) j) := unflat_inB (by rw [size_pad, ← h.wl]; exact hj)
      obtain ⟨w, hw, hP⟩ := hocc (unflat (padShape r.shape.length l.shape) j) l.data[j] (by
        rw [Arr.get?_of_inB hqi]
        simp only
        rw [flat_unflat (by rw [size_pad, ← h.wl]; exact hj), List.getElem?_eq_getElem hj])
      have hz := fits_inB _ _ p _ hl (by omega) hf hqi
      rw [Arr.get?_of_inB hz, flat_add _ _ _ (by omega) (by rw [hqi.length_eq, hl])] at hw
      obtain ⟨_, hw⟩ := List.getElem?_eq_some_iff.1 hw
      rw [hw]
      exact hP

/-- A copy that occurs fits. -/
theorem occurs_fits {P : α → α → Prop} {l r : Arr α} (wl : l.WF) (hr : ¬ l.shape.length > r.shape.length) (p : List Nat) (hp : InB r.shape p)
    (h0 : l.data ≠ []) (ho : OccursAt P l r p) : FitsAt (padShape r.shape.length l.shape) r.shape p := by
  have hl := pad_length hr
  have hpos : 0 < size (padShape r.shape.length l.shape) := by rw [size_pad, ← wl]; exact List.length_pos_iff.2 h0
  have hlt : l.data.length - 1 < size (padShape r.shape.length l.shape) := by rw [size_pad, ← wl]; have := List.length_pos_iff.2 h0; omega
  -- the last element
  have hlast : InB (padShape r.shape.length l.shape) ((padShape r.shape.length l.shape).map (· - 1)) := by
    have : ∀ s : List Nat, 0 < size s → InB s (s.map (· - 1)) := by
      intro s
      induction s with
      | nil => simp [InB]
      | cons n s ih =>
        intro h
        simp only [size] at h
        exact ⟨by have := Nat.pos_of_mul_pos_right h; show n - 1 < n; omega, ih (Nat.pos_of_mul_pos_left h)⟩
    exact this _ hpos
  obtain ⟨v, hv⟩ := Option.isSome_iff_exists.1 (Arr.get?_isSome (a := ⟨padShape r.shape.length l.shape, l.data⟩) (by
    show l.data.length = size _; rw [size_pad]; exact wl) hlast)
  obtain ⟨w, hw, _⟩ := ho _ v hv
  have hz : InB r.shape (List.zipWith (· + ·) p ((padShape r.shape.length l.shape).map (· - 1))) := by
    unfold Arr.get? at hw
    split at hw
    · assumption
    · cases hw
  intro k hk
  have h1 := hz.getD_lt hk
  have hpk : k < p.length := by rw [hp.length_eq]; exact hk
  have hlk : k < (padShape r.shape.length l.shape).length := by omega
  have h2 : 0 < (padShape r.shape.length l.shape).getD k 0 := by
    have := hlast.getD_lt hlk
    omega
  rw [List.getD_eq_getElem?_getD] at h1 h2 ⊢
  rw [List.getD_eq_getElem?_getD, List.getElem?_eq_getElem hpk, List.getElem?_eq_getElem hlk] at *
  simp only [List.getElem?_zipWith, List.getElem?_eq_getElem hpk, List.getElem?_map, List.getElem?_eq_getElem hlk] at h1
  simp at h1 h2 ⊢
  omega

/-- Full statement: the result of `L⍷R` has the shape of `R` and is 1 exactly at the positions where a copy of `L` starts.  Proved part: the
shape; every start of a copy is marked; at positions where a copy of `L` lies inside of `R` a mark is right; if `L` has a larger rank nothing is
marked.  Missing: at positions where `L` does not fit the code compares with elements of the next rows (see the counterexamples). -/
theorem C57_find_partial {feq : α → α → Res Bool} {P : α → α → Prop} {l r : Arr α} (h : FindArgs feq P l r) (B : Option (Arr Bool))
    (hB : findArr feq (some l) (some r) = .ok B) :
    ∃ b, B = some b ∧ b.shape = r.shape ∧ b.WF ∧
      (l.shape.length > r.shape.length → ∀ p, InB r.shape p → b.get? p = some false) ∧
      (¬ l.shape.length > r.shape.length → ∀ p, InB r.shape p →
        (l.data ≠ [] → OccursAt P l r p → b.get? p = some true) ∧
        (FitsAt (padShape r.shape.length l.shape) r.shape p → (b.get? p = some true ↔ OccursAt P l r p))) := by
  by_cases hr : l.shape.length > r.shape.length
  · simp only [findArr, Option.getD_some] at hB
    rw [if_pos hr] at hB
    cases hB
    refine ⟨_, rfl, rfl, by simp [Arr.WF, prod_eq_size h.nr], fun _ p hp => ?_, fun h' => absurd hr h'⟩
    rw [Arr.get?_of_inB (a := (⟨r.shape, List.replicate (prod r.shape) false⟩ : Arr Bool)) hp]
    simp only
    rw [List.getElem?_replicate, if_pos (by rw [prod_eq_size h.nr]; exact flat_lt hp)]
  · rw [findArr_eq h hr] at hB
    cases hL : findLoop feq (strides r.shape) (padShape r.shape.length l.shape) l.data r.data (prod r.shape) 0 with
    | error e => rw [hL] at hB; cases hB
    | ok d =>
      rw [hL] at hB
      cases hB
      obtain ⟨h1, h2⟩ := findLoop_get _ _ _ _ _ _ _ _ hL
      refine ⟨_, rfl, rfl, by show d.length = _; rw [h1, prod_eq_size h.nr], fun h' => absurd h' hr, fun _ p hp => ?_⟩
      have key : FitsAt (padShape r.shape.length l.shape) r.shape p → ((⟨r.shape, d⟩ : Arr Bool).get? p = some true ↔ OccursAt P l r p) := by
        intro hf
        obtain ⟨b, e1, e2⟩ := h2 (flat r.shape p) (by rw [prod_eq_size h.nr]; exact flat_lt hp)
        obtain ⟨b', e3, e4⟩ := findAtPos_spec h hr p hp hf
        unfold findAtPos at e3
        rw [Nat.zero_add, e3] at e2
        cases e2
        rw [Arr.get?_of_inB (a := ⟨r.shape, d⟩) hp]
        simp only
        rw [e1, ← e4]
        simp
      exact ⟨fun h0 ho => (key (occurs_fits h.wl hr p hp h0 ho)).2 ho, key⟩

/-- If `L` fits at every position that leaves as many elements as `L` has (as it does for vectors and for a single element), find is exact and does
not fail. -/
theorem C57_exact {feq : α → α → Res Bool} {P : α → α → Prop} {l r : Arr α} (h : FindArgs feq P l r) (hr : ¬ l.shape.length > r.shape.length)
    (hl : l.data ≠ []) (hfit : ∀ p, InB r.shape p → l.data.length ≤ r.data.length - flat r.shape p → FitsAt (padShape r.shape.length l.shape) r.shape p) :
    ∃ b, findArr feq (some l) (some r) = .ok (some b) ∧ b.shape = r.shape ∧ b.WF ∧ ∀ p, InB r.shape p → (b.get? p = some true ↔ OccursAt P l r p) := by
  obtain ⟨d, hd⟩ := findLoop_ok feq (strides r.shape) (padShape r.shape.length l.shape) l.data r.data (prod r.shape) 0 (fun k hk => by
    rw [Nat.zero_add]
    by_cases hlt : l.data.length > r.data.length - k
    · exact ⟨false, by rw [findMark, if_pos hlt]⟩
    · have hk' : k < size r.shape := by rw [← prod_eq_size h.nr]; exact hk
      obtain ⟨b, e, _⟩ := findAtPos_spec h hr (unflat r.shape k) (unflat_inB hk') (hfit _ (unflat_inB hk') (by rw [flat_unflat hk']; omega))
      rw [flat_unflat hk'] at e
      unfold findAtPos at e
      exact ⟨b, e⟩)
  have he : findArr feq (some l) (some r) = .ok (some ⟨r.shape, d⟩) := by
    rw [findArr_eq h hr, hd]; rfl
  obtain ⟨b, e, h1, hw, _, h2⟩ := C57_find_partial h _ he
  cases e
  refine ⟨_, he, rfl, hw, fun p hp => ?_⟩
  obtain ⟨h3, h4⟩ := h2 hr p hp
  by_cases hle : l.data.length ≤ r.data.length - flat r.shape p
  · exact h4 (hfit p hp hle)
  · refine ⟨fun hb => ?_, h3 hl⟩
    obtain ⟨_, hg⟩ := findLoop_get _ _ _ _ _ _ _ _ hd
    obtain ⟨b, e1, e2⟩ := hg (flat r.shape p) (by rw [prod_eq_size h.nr]; exact flat_lt hp)
    rw [Nat.zero_add, findMark, if_pos (by omega)] at e2
    cases e2
    rw [Arr.get?_of_inB (a := ⟨r.shape, d⟩) hp] at hb
    simp only at hb
    rw [e1] at hb
    cases hb

/-- Vectors: `L⍷R` is 1 exactly where `L` starts in `R`. -/
theorem C57_vector {feq : α → α → Res Bool} {P : α → α → Prop} {n m : Nat} {x y : List α} (h : FindArgs feq P ⟨[n], x⟩ ⟨[m], y⟩) (hx : x ≠ []) :
    ∃ d, findArr feq (some ⟨[n], x⟩) (some ⟨[m], y⟩) = .ok (some ⟨[m], d⟩) ∧ d.length = m ∧
      ∀ i, i < m → (d[i]? = some true ↔ ∀ (k : Nat) v, x[k]? = some v → ∃ w, y[i + k]? = some w ∧ P v w) := by
  have hn : x.length = n := by have := h.wl; simpa [Arr.WF, size] using this
  have hm : y.length = m := by have := h.wr; simpa [Arr.WF, size] using this
  obtain ⟨b, e, h1, hw, h2⟩ := C57_exact h (by simp) hx (fun p hp hle => by
    obtain ⟨i, rfl⟩ : ∃ i, p = [i] := by
      cases p with
      | nil => exact absurd hp (by simp [InB])
      | cons i p => cases p with
        | nil => exact ⟨i, rfl⟩
        | cons j p => exact absurd hp (by simp [InB])
    intro k hk
    simp [InB] at hp hk
    subst hk
    simp [padShape, flat, size] at hle ⊢
    have := List.length_pos_iff.2 hx
    omega)
  obtain ⟨sb, db⟩ := b
  simp only at h1
  subst h1
  refine ⟨db, e, by simpa [Arr.WF, size] using hw, fun i hi => ?_⟩
  have hib : InB [m] [i] := ⟨hi, trivial⟩
  have := h2 [i] hib
  rw [Arr.get?_of_inB hib] at this
  simp only [flat, size, Nat.mul_one, Nat.add_zero] at this
  rw [this]
  constructor
  · intro ho k v hv
    have hk : k < n := by rw [← hn]; exact (List.getElem?_eq_some_iff.1 hv).1
    obtain ⟨w, hw, hP⟩ := ho [k] v (by
      rw [Arr.get?_of_inB (by simpa [padShape, InB] using hk)]
      simpa [padShape, flat, size] using hv)
    have hin : InB [m] (List.zipWith (· + ·) [i] [k]) := by
      unfold Arr.get? at hw
      split at hw
      · assumption
      · cases hw
    rw [Arr.get?_of_inB hin] at hw
    exact ⟨w, by simpa [flat, size] using hw, hP⟩
  · intro ho q v hq
    have hin : InB (padShape 1 [n]) q := by
      unfold Arr.get? at hq
      split at hq
      · assumption
      · cases hq
    rw [Arr.get?_of_inB hin] at hq
    obtain ⟨k, rfl⟩ : ∃ i, q = [i] := by
      cases q with
      | nil => exact absurd hin (by simp [InB, padShape])
      | cons i p => cases p with
        | nil => exact ⟨i, rfl⟩
        | cons j p => exact absurd hin (by simp [InB, padShape])
    obtain ⟨w, hw, hP⟩ := ho k v (by simpa [padShape, flat, size] using hq)
    refine ⟨w, ?_, hP⟩
    have hz : InB [m] (List.zipWith (· + ·) [i] [k]) := by
      simp only [List.zipWith_cons_cons, List.zipWith_nil_left, InB, and_true]
      rw [← hm]; exact (List.getElem?_eq_some_iff.1 hw).1
    rw [Arr.get?_of_inB hz]
    simpa [flat, size] using hw

/-- A single element is found in an array of any shape exactly at the elements it is equal to. -/
theorem C57_single {feq : α → α → Res Bool} {P : α → α → Prop} {r : Arr α} {x : α} (h : FindArgs feq P ⟨[1], [x]⟩ r) :
    ∃ b, findArr feq (some ⟨[1], [x]⟩) (some r) = .ok (some b) ∧ b.shape = r.shape ∧ b.WF ∧
      ∀ p, InB r.shape p → (b.get? p = some true ↔ ∃ w, r.get? p = some w ∧ P x w) := by
  have hrk : 1 ≤ r.shape.length := List.length_pos_iff.2 h.nr
  have hpad : padShape r.shape.length [1] = List.replicate r.shape.length 1 := by
    show List.replicate (r.shape.length - 1) 1 ++ [1] = _
    rw [← List.replicate_succ', Nat.sub_add_cancel hrk]
  obtain ⟨b, e, h1, hw, h2⟩ := C57_exact h (by show ¬ 1 > r.shape.length; omega) (by simp) (fun p hp _ k hk => by
    simp only
    rw [hpad]
    have := hp.getD_lt hk
    have h1 : (List.replicate r.shape.length 1).getD k 0 = 1 := by rw [List.getD_eq_getElem?_getD, List.getElem?_replicate, if_pos hk]; rfl
    rw [h1]
    omega)
  refine ⟨b, e, h1, hw, fun p hp => ?_⟩
  rw [h2 p hp]
  have hz : ∀ n, InB (List.replicate n 1) (List.replicate n 0) := by
    intro n
    induction n with
    | zero => simp [InB]
    | succ n ih => exact ⟨by omega, ih⟩
  have hz' : ∀ n q, InB (List.replicate n 1) q → q = List.replicate n 0 := by
    intro n
    induction n with
    | zero => intro q hq; cases q <;> simp_all [InB]
    | succ n ih =>
      intro q hq
      cases q with
      | nil => simp [List.replicate_succ, InB] at hq
      | cons a q =>
        obtain ⟨h1, h2⟩ := hq
        obtain rfl : a = 0 := by omega
        rw [ih q h2]; rfl
  have hadd : List.zipWith (· + ·) p (List.replicate r.shape.length 0) = p := by
    have hpl := hp.length_eq
    apply List.ext_getElem?
    intro k
    rw [List.getElem?_zipWith, List.getElem?_replicate]
    by_cases hk : k < r.shape.length
    · rw [if_pos hk, List.getElem?_eq_getElem (by omega)]; simp
    · rw [if_neg hk, List.getElem?_eq_none (by omega)]
  unfold OccursAt
  constructor
  · intro ho
    obtain ⟨w, h3, h4⟩ := ho (List.replicate r.shape.length 0) x (by
      simp only [hpad]
      rw [Arr.get?_of_inB (hz _)]
      have := flat_lt (hz r.shape.length)
      rw [← hpad, size_pad] at this
      simp only [size] at this
      rw [hpad] at this
      rw [show flat (List.replicate r.shape.length 1) (List.replicate r.shape.length 0) = 0 by omega]
      rfl)
    rw [hadd] at h3
    exact ⟨w, h3, h4⟩
  · rintro ⟨w, h3, h4⟩ q v hq
    simp only [hpad] at hq
    have hin : InB (List.replicate r.shape.length 1) q := by
      unfold Arr.get? at hq
      split at hq
      · assumption
      · cases hq
    have := hz' _ q hin
    subst this
    rw [Arr.get?_of_inB hin] at hq
    obtain ⟨_, hv⟩ := List.getElem?_eq_some_iff.1 hq
    simp at hv
    subst hv
    rw [hadd]
    exact ⟨w, h3, h4⟩

/-! ### The exact meaning of the code -/

/-- The element number `j` of `L` is equal to the element of `R` that lies as many places behind the ravel position `i` as the index of `j` says,
whether this is in the same row or not. -/
def AgreesAt (P : α → α → Prop) (l r : Arr α) (i j : Nat) : Prop :=
  ∃ v w, l.data[j]? = some v ∧ r.data[i + flat r.shape (unflat (padShape r.shape.length l.shape) j)]? = some w ∧ P v w

/-- The comparison at position `i` runs over the end of `R`: all elements before `j` agree, the place of `j` is behind the last element. -/
def RunsOver (P : α → α → Prop) (l r : Arr α) (i : Nat) : Prop :=
  ∃ j, j < l.data.length ∧ (∀ k, k < j → AgreesAt P l r i k) ∧ r.data.length ≤ i + flat r.shape (unflat (padShape r.shape.length l.shape) j)

theorem findAt_exact {feq : α → α → Res Bool} {P : α → α → Prop} {l r : Arr α} (h : FindArgs feq P l r) (hr : ¬ l.shape.length > r.shape.length)
    (i : Nat) (xs : List α) (k : Nat) (hk : k + xs.length = l.data.length) (hx : l.data.drop k = xs) (idx : List Nat)
    (hidx : xs ≠ [] → idx = unflat (padShape r.shape.length l.shape) k) (hbefore : ∀ j, j < k → AgreesAt P l r i j) :
    (RunsOver P l r i → findAt feq (strides r.shape) (padShape r.shape.length l.shape) r.data i xs idx = .error .panic) ∧
    (¬ RunsOver P l r i → ∃ b, findAt feq (strides r.shape) (padShape r.shape.length l.shape) r.data i xs idx = .ok b ∧
      (b = true ↔ ∀ j, j < l.data.length → AgreesAt P l r i j)) := by
  have hl := pad_length hr
  induction xs generalizing k idx with
  | nil =>
    have hkl : k = l.data.length := by simpa using hk
    refine ⟨?_, fun _ => ⟨true, rfl, ?_⟩⟩
    · rintro ⟨j, hj, _, hov⟩
      obtain ⟨v, w, _, hw, _⟩ := hbefore j (by omega)
      obtain ⟨hlt, _⟩ := List.getElem?_eq_some_iff.1 hw
      omega
    · simp only [true_iff]
      intro j hj
      exact hbefore j (by omega)
  | cons x xs ih =>
    have hk' : k < l.data.length := by simp at hk; omega
    have hxe : l.data[k] = x := by
      have := congrArg (·[0]?) hx
      simp at this
      rw [List.getElem?_eq_getElem hk'] at this
      exact Option.some.inj this
    rw [findAt, hidx (by simp), icIndex_strides (by rw [unflat_length, hl])]
    by_cases hlt : i + flat r.shape (unflat (padShape r.shape.length l.shape) k) < r.data.length
    · rw [sliceAt_ok hlt]
      obtain ⟨b, e, hb⟩ := h.feq l.data[k] (List.getElem_mem _) (r.data[i + flat r.shape (unflat (padShape r.shape.length l.shape) k)]'hlt) (List.getElem_mem _)
      rw [← hxe]
      simp only [bind, Except.bind, e]
      cases b with
      | false =>
        have hno : ¬ AgreesAt P l r i k := by
          rintro ⟨v, w, h1, h2, h3⟩
          rw [List.getElem?_eq_getElem hk'] at h1
          rw [List.getElem?_eq_getElem hlt] at h2
          cases h1; cases h2
          exact absurd (hb.2 h3) (by simp)
        refine ⟨?_, fun _ => ⟨false, rfl, ?_⟩⟩
        · rintro ⟨j, hj, hall, hov⟩
          exfalso
          rcases Nat.lt_trichotomy j k with hjk | hjk | hjk
          · obtain ⟨v, w, _, hw, _⟩ := hbefore j hjk
            obtain ⟨hlt', _⟩ := List.getElem?_eq_some_iff.1 hw
            omega
          · subst hjk; omega
          · exact hno (hall k hjk)
        · simp only [Bool.false_eq_true, false_iff]
          intro hall
          exact hno (hall k hk')
      | true =>
        have hyes : AgreesAt P l r i k := ⟨_, _, List.getElem?_eq_getElem hk', List.getElem?_eq_getElem hlt, hb.1 rfl⟩
        refine ih (k + 1) (by simp at hk; omega) (by rw [← List.drop_drop, hx]; rfl) _ (fun hne => ?_) (fun j hj => ?_)
        · rw [incArrayIndex_unflat (by rw [size_pad, ← h.wl]; exact hk'), Nat.mod_eq_of_lt]
          have := List.length_pos_iff.2 hne
          rw [size_pad, ← h.wl]
          simp at hk
          omega
        · by_cases hjk : j = k
          · subst hjk; exact hyes
          · exact hbefore j (by omega)
    · have hov : RunsOver P l r i := ⟨k, hk', hbefore, by omega⟩
      refine ⟨fun _ => ?_, fun hn => absurd hov hn⟩
      have : sliceAt r.data (i + flat r.shape (unflat (padShape r.shape.length l.shape) k)) = .error .panic := by
        unfold sliceAt
        rw [List.getElem?_eq_none (by omega)]
      rw [this]
      rfl

theorem findMark_exact {feq : α → α → Res Bool} {P : α → α → Prop} {l r : Arr α} (h : FindArgs feq P l r) (hr : ¬ l.shape.length > r.shape.length) (i : Nat) :
    (l.data.length ≤ r.data.length - i → RunsOver P l r i → findAtPos feq l r i = .error .panic) ∧
    ((l.data.length ≤ r.data.length - i → ¬ RunsOver P l r i) → ∃ b, findAtPos feq l r i = .ok b ∧
      (b = true ↔ l.data.length ≤ r.data.length - i ∧ ∀ j, j < l.data.length → AgreesAt P l r i j)) := by
  obtain ⟨h1, h2⟩ := findAt_exact h hr i l.data 0 (by simp) rfl ((padShape r.shape.length l.shape).map (fun _ => 0)) (fun _ => zero_unflat _)
    (fun j hj => absurd hj (by omega))
  unfold findAtPos findMark
  by_cases hle : l.data.length ≤ r.data.length - i
  · rw [if_neg (by omega)]
    refine ⟨fun _ => h1, fun hn => ?_⟩
    obtain ⟨b, e, hb⟩ := h2 (hn hle)
    exact ⟨b, e, by rw [hb]; exact ⟨fun x => ⟨hle, x⟩, fun x => x.2⟩⟩
  · rw [if_pos (by omega)]
    exact ⟨fun h => absurd h hle, fun _ => ⟨false, rfl, by simp only [Bool.false_eq_true, false_iff]; exact fun h => hle h.1⟩⟩

theorem findLoop_panic (feq : α → α → Res Bool) (ic ls : List Nat) (l r : List α) (n i : Nat)
    (hall : ∀ k, (∃ b, findMark feq ic ls l r k = .ok b) ∨ findMark feq ic ls l r k = .error .panic)
    (h : ∃ k, k < n ∧ findMark feq ic ls l r (i + k) = .error .panic) : findLoop feq ic ls l r n i = .error .panic := by
  induction n generalizing i with
  | zero => obtain ⟨k, hk, _⟩ := h; omega
  | succ n ih =>
    rw [findLoop]
    rcases hall i with ⟨b, e⟩ | e
    · rw [e]
      obtain ⟨k, hk, hp⟩ := h
      cases k with
      | zero => rw [Nat.add_zero, e] at hp; cases hp
      | succ k =>
        rw [ih (i + 1) ⟨k, by omega, by rw [← hp, show i + 1 + k = i + (k + 1) by omega]⟩]
        rfl
    · rw [e]; rfl

/-- C57: what `L⍷R` is for all arrays, if the rank of `L` is not larger.  It panics exactly if at some position, behind which there are as many
elements as `L` has, the comparison runs over the end of `R`; otherwise it has the shape of `R`, and a position is marked exactly if there are as
many elements behind it and all elements of `L` agree with those of `R`, where places beyond the end of a row are in the next rows. -/
theorem C57_ravel {feq : α → α → Res Bool} {P : α → α → Prop} {l r : Arr α} (h : FindArgs feq P l r) (hr : l.shape.length ≤ r.shape.length) :
    ((∃ i, i < r.data.length ∧ l.data.length ≤ r.data.length - i ∧ RunsOver P l r i) → findArr feq (some l) (some r) = .error .panic) ∧
    ((∀ i, i < r.data.length → l.data.length ≤ r.data.length - i → ¬ RunsOver P l r i) →
      ∃ d, findArr feq (some l) (some r) = .ok (some ⟨r.shape, d⟩) ∧ d.length = r.data.length ∧
        ∀ i, i < r.data.length →
          (d[i]? = some true ↔ l.data.length ≤ r.data.length - i ∧ ∀ j, j < l.data.length → AgreesAt P l r i j)) := by
  have hr' : ¬ l.shape.length > r.shape.length := by omega
  have hpr : prod r.shape = r.data.length := by rw [prod_eq_size h.nr, h.wr]
  rw [findArr_eq h hr', hpr]
  refine ⟨?_, ?_⟩
  · rintro ⟨i, hi, hle, hov⟩
    rw [findLoop_panic]
    · rfl
    · intro k
      obtain ⟨h1, h2⟩ := findMark_exact h hr' k
      by_cases hk : l.data.length ≤ r.data.length - k ∧ RunsOver P l r k
      · exact .inr (h1 hk.1 hk.2)
      · obtain ⟨b, e, _⟩ := h2 (fun hle ho => hk ⟨hle, ho⟩)
        exact .inl ⟨b, e⟩
    · exact ⟨i, hi, by rw [Nat.zero_add]; exact (findMark_exact h hr' i).1 hle hov⟩
  · intro hn
    obtain ⟨d, hd⟩ := findLoop_ok feq (strides r.shape) (padShape r.shape.length l.shape) l.data r.data r.data.length 0 (fun k hk => by
      rw [Nat.zero_add]
      obtain ⟨b, e, _⟩ := (findMark_exact h hr' k).2 (hn k hk)
      exact ⟨b, e⟩)
    obtain ⟨hlen, hget⟩ := findLoop_get _ _ _ _ _ _ _ _ hd
    refine ⟨d, by rw [hd]; rfl, hlen, fun i hi => ?_⟩
    obtain ⟨b, e1, e2⟩ := hget i hi
    obtain ⟨b', e3, hb⟩ := (findMark_exact h hr' i).2 (hn i hi)
    rw [Nat.zero_add] at e2
    unfold findAtPos at e3
    rw [e2] at e3
    cases e3
    rw [e1, ← hb]
    simp

/-- `1 2⍷2 2⍴5 1 2 6` marks the position of the 1, although no row has `1 2`. -/
theorem C57_across_rows : findArr (fun x y => .ok (decide (x = y))) (some ⟨[2], [1, 2]⟩) (some (⟨[2, 2], [5, 1, 2, 6]⟩ : Arr Nat))
    = .ok (some ⟨[2, 2], [false, true, false, false]⟩) := by rfl

/-- `(2 1⍴1 1)⍷2 2⍴0 0 1 1` panics: the comparison runs over the end of `R`. -/
theorem C57_panic : findArr (fun x y => .ok (decide (x = y))) (some ⟨[2, 1], [1, 1]⟩) (some (⟨[2, 2], [0, 0, 1, 1]⟩ : Arr Nat))
    = .error .panic := by rfl

/-- An `EmptyArray` as `L` panics. -/
theorem C57_empty_left (feq : α → α → Res Bool) (n : Nat) (d : List α) : findArr feq none (some ⟨[n], d⟩) = .error .panic := by rfl

example : findArr (fun x y => .ok (decide (x = y))) (some ⟨[2], [1, 2]⟩) (some (⟨[2, 3], [5, 1, 2, 6, 1, 2]⟩ : Arr Nat))
    = .ok (some ⟨[2, 3], [false, true, false, false, true, false]⟩) := by rfl
example : FindArgs (fun x y => .ok (decide (x = y))) (· = ·) ⟨[2], [1, 2]⟩ (⟨[2, 3], [5, 1, 2, 6, 1, 2]⟩ : Arr Nat) :=
  ⟨rfl, rfl, by simp, by simp, fun x _ y _ => ⟨_, rfl, by simp⟩⟩

end Iv

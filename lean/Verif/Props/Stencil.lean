import Verif.Model.Stencil
import Verif.Lemmas.Effect
import Verif.Lemmas.Gather
import Verif.Lemmas.FormatScan
/-
C76: the stencil operator.
-/
namespace Iv
variable {m : Type → Type} [Monad m] [LawfulMonad m] {α : Type}

/- ## Specification -/

/-- The element at an integer position of an array; none outside. -/
def Arr.atInt? (a : Arr α) (zs : List Int) : Option α := if ∀ z ∈ zs, 0 ≤ z then a.get? (zs.map Int.toNat) else none

/-- The position of the point `s` of a stencil of shape `D` that is centred on the element `idx`. -/
def around : (D idx s : List Nat) → List Int
  | D :: Ds, i :: idx, s :: sdx => ((i : Int) - ((D / 2 : Nat) : Int) + s) :: around Ds idx sdx
  | _, _, _ => []

/-- The part of the array under a stencil of shape `D` centred on `idx`, with `zero` outside of the array. -/
def windowOf (zero : α) (a : Arr α) (D idx : List Nat) : Arr α := ⟨D, (allIdx D).map (fun s => (a.atInt? (around D idx s)).getD zero)⟩

/-- The left argument of the stencil function: for every axis the half length of the stencil minus the index. -/
def centreOffset : (D idx : List Nat) → List Int
  | D :: Ds, i :: idx => (((D / 2 : Nat) : Int) - i) :: centreOffset Ds idx
  | _, _ => []

/- ## Proof -/

theorem stencilPoint_place (Ds ns idx sdx : List Nat) (vec : List Int) (h1 : ns.length = Ds.length) (h2 : idx.length = Ds.length) (h3 : sdx.length = Ds.length)
    (h4 : vec.length = Ds.length) :
    (stencilPoint Ds ns idx sdx vec).1 = around Ds idx sdx ∧
    ((stencilPoint Ds ns idx sdx vec).2.1 = false ↔ (∀ z ∈ around Ds idx sdx, 0 ≤ z) ∧ InB ns ((around Ds idx sdx).map Int.toNat)) ∧
    (stencilPoint Ds ns idx sdx vec).2.2.length = Ds.length := by
  induction Ds generalizing ns idx sdx vec with
  | nil =>
    cases List.length_eq_zero_iff.1 h1
    simp [stencilPoint, around, InB]
  | cons D Ds ih =>
    obtain ⟨n, ns, rfl⟩ := List.exists_cons_of_length_eq_add_one h1
    obtain ⟨i, idx, rfl⟩ := List.exists_cons_of_length_eq_add_one h2
    obtain ⟨s, sdx, rfl⟩ := List.exists_cons_of_length_eq_add_one h3
    obtain ⟨v, vec, rfl⟩ := List.exists_cons_of_length_eq_add_one h4
    simp only [List.length_cons, Nat.add_right_cancel_iff] at h1 h2 h3 h4
    obtain ⟨e1, e2, e3⟩ := ih ns idx sdx vec h1 h2 h3 h4
    simp only [stencilPoint, around, stencilAxis]
    refine ⟨?_, ?_, by simp [e3]⟩
    · rw [e1]; congr 1; omega
    · simp only [Bool.or_eq_false_iff, decide_eq_false_iff_not, e2, List.mem_cons, forall_eq_or_imp, List.map_cons, InB]
      constructor
      · rintro ⟨h, h', h''⟩
        refine ⟨⟨by omega, h'⟩, by omega, h''⟩
      · rintro ⟨⟨h, h'⟩, h3, h4⟩
        exact ⟨by omega, h', h4⟩

theorem stencilValue_eq (zero : α) (a : Arr α) (hw : a.WF) (Ds idx sdx : List Nat) (vec : List Int) (h1 : a.shape.length = Ds.length) (h2 : idx.length = Ds.length)
    (h3 : sdx.length = Ds.length) (h4 : vec.length = Ds.length) :
    stencilValue zero a (stencilPoint Ds a.shape idx sdx vec) = .ok ((a.atInt? (around Ds idx sdx)).getD zero) := by
  obtain ⟨e1, e2, _⟩ := stencilPoint_place Ds a.shape idx sdx vec h1 h2 h3 h4
  rw [stencilValue, e1, Arr.atInt?]
  by_cases h : (∀ z ∈ around Ds idx sdx, 0 ≤ z) ∧ InB a.shape ((around Ds idx sdx).map Int.toNat)
  · rw [if_neg (by rw [e2.2 h]; decide), if_pos h.1, icIndex_strides h.2.length_eq, Arr.get?_of_inB h.2]
    have := flat_lt h.2
    rw [← hw] at this
    rw [sliceAt_ok this, List.getElem?_eq_getElem this]
    rfl
  · have : (stencilPoint Ds a.shape idx sdx vec).2.1 = true := by
      cases hb : (stencilPoint Ds a.shape idx sdx vec).2.1 with
      | true => rfl
      | false => exact absurd (e2.1 hb) h
    rw [if_pos this]
    split
    · rename_i h'
      rw [Arr.get?, if_neg (fun hb => h ⟨h', hb⟩)]
      rfl
    · rfl

/-- the left argument after the points of a list -/
def offsetsAfter (Ds ns idx : List Nat) (vec : List Int) (l : List (List Nat)) : List Int := l.foldl (fun vec s => (stencilPoint Ds ns idx s vec).2.2) vec

theorem stencilFill_eq (zero : α) (a : Arr α) (hw : a.WF) (Ds idx : List Nat) (h1 : a.shape.length = Ds.length) (h2 : idx.length = Ds.length) (k j : Nat)
    (hj : j + k ≤ size Ds) (vec : List Int) (h4 : vec.length = Ds.length) :
    stencilFill zero a Ds idx k (unflat Ds (j % size Ds)) vec =
      .ok ((List.range' j k).map (fun i => (a.atInt? (around Ds idx (unflat Ds i))).getD zero),
        offsetsAfter Ds a.shape idx vec ((List.range' j k).map (unflat Ds)), unflat Ds ((j + k) % size Ds)) := by
  induction k generalizing j vec with
  | zero => rfl
  | succ k ih =>
    have hlt : j < size Ds := by omega
    have hlen : (unflat Ds j).length = Ds.length := unflat_length ..
    rw [Nat.mod_eq_of_lt hlt, stencilFill, stencilValue_eq zero a hw Ds idx _ vec h1 h2 hlen h4, incArrayIndex_unflat hlt]
    simp only [bind, Except.bind]
    rw [ih (j + 1) (by omega) _ (stencilPoint_place Ds a.shape idx _ vec h1 h2 hlen h4).2.2]
    simp only [List.range'_succ, List.map_cons, offsetsAfter, List.foldl_cons]
    rw [show j + 1 + k = j + (k + 1) by omega]

theorem offsets_cons (D n i : Nat) (Ds ns idx : List Nat) (v : Int) (vec : List Int) (l : List (List Nat)) (hl : ∀ s ∈ l, s ≠ []) :
    offsetsAfter (D :: Ds) (n :: ns) (i :: idx) (v :: vec) l =
      (l.map (fun s => s.headD 0)).foldl (fun v s => (stencilAxis D n i s v).2.2) v :: offsetsAfter Ds ns idx vec (l.map List.tail) := by
  induction l generalizing v vec with
  | nil => rfl
  | cons s l ih =>
    obtain ⟨x, s, rfl⟩ := List.exists_cons_of_ne_nil (hl s List.mem_cons_self)
    simp only [offsetsAfter, List.foldl_cons, List.map_cons, List.headD_cons, List.tail_cons] at ih ⊢
    rw [show (stencilPoint (D :: Ds) (n :: ns) (i :: idx) (x :: s) (v :: vec)).2.2 = (stencilAxis D n i x v).2.2 :: (stencilPoint Ds ns idx s vec).2.2 from rfl,
      ih _ _ (fun t ht => hl t (List.mem_cons_of_mem _ ht))]

theorem axis_fold (D n i : Nat) (l : List Nat) (hl : ∀ s ∈ l, s < D) (h0 : 0 ∈ l) (h1 : D - 1 ∈ l) :
    l.foldl (fun v s => (stencilAxis D n i s v).2.2) 0 = ((D / 2 : Nat) : Int) - i := by
  have hD : 0 < D := by have := hl 0 h0; omega
  simp only [stencilAxis]
  by_cases hlt : i < D / 2
  · -- positive offset, reached at the first point
    have key : ∀ (l : List Nat) (v : Int), (∀ s ∈ l, s < D) → (v = 0 ∨ (0 ≤ v ∧ v ≤ ((D / 2 : Nat) : Int) - i)) →
        (0 ∈ l ∨ v = ((D / 2 : Nat) : Int) - i) →
        l.foldl (fun v (s : Nat) => if (i : Int) + s - ((D / 2 : Nat) : Int) < 0 ∧ -((i : Int) + s - ((D / 2 : Nat) : Int)) > v then -((i : Int) + s - ((D / 2 : Nat) : Int))
          else if (i : Int) + s - ((D / 2 : Nat) : Int) + 1 - D > 0 ∧ -((i : Int) + s - ((D / 2 : Nat) : Int) + 1 - D) < v then -((i : Int) + s - ((D / 2 : Nat) : Int) + 1 - D) else v) v
          = ((D / 2 : Nat) : Int) - i := by
      intro l
      induction l with
      | nil =>
        intro v _ _ h
        rcases h with h | h
        · cases h
        · exact h
      | cons s l ih =>
        intro v hs hv h
        have hsD := hs s List.mem_cons_self
        rw [List.foldl_cons]
        apply ih _ (fun t ht => hs t (List.mem_cons_of_mem _ ht))
        · split
          · right; omega
          · rw [if_neg (by omega)]; exact hv
        · rcases h with h | h
          · rcases List.mem_cons.1 h with rfl | h
            · right
              split
              · omega
              · rw [if_neg (by omega)]; omega
            · exact .inl h
          · right
            rw [if_neg (by omega), if_neg (by omega)]
            exact h
    exact key l 0 hl (.inl rfl) (.inl h0)
  · have key : ∀ (l : List Nat) (v : Int), (∀ s ∈ l, s < D) → (v ≤ 0 ∧ ((D / 2 : Nat) : Int) - i ≤ v) →
        (D - 1 ∈ l ∨ v = ((D / 2 : Nat) : Int) - i) →
        l.foldl (fun v (s : Nat) => if (i : Int) + s - ((D / 2 : Nat) : Int) < 0 ∧ -((i : Int) + s - ((D / 2 : Nat) : Int)) > v then -((i : Int) + s - ((D / 2 : Nat) : Int))
          else if (i : Int) + s - ((D / 2 : Nat) : Int) + 1 - D > 0 ∧ -((i : Int) + s - ((D / 2 : Nat) : Int) + 1 - D) < v then -((i : Int) + s - ((D / 2 : Nat) : Int) + 1 - D) else v) v
          = ((D / 2 : Nat) : Int) - i := by
      intro l
      induction l with
      | nil =>
        intro v _ _ h
        rcases h with h | h
        · cases h
        · exact h
      | cons s l ih =>
        intro v hs hv h
        have hsD := hs s List.mem_cons_self
        rw [List.foldl_cons]
        apply ih _ (fun t ht => hs t (List.mem_cons_of_mem _ ht))
        · rw [if_neg (by omega)]
          split
          · omega
          · exact hv
        · rcases h with h | h
          · rcases List.mem_cons.1 h with rfl | h
            · right
              rw [if_neg (by omega)]
              split
              · omega
              · omega
            · exact .inl h
          · right
            rw [if_neg (by omega), if_neg (by omega)]
            exact h
    exact key l 0 hl ⟨by omega, by omega⟩ (.inl h1)

theorem offsets_eq (Ds ns idx : List Nat) (h1 : ns.length = Ds.length) (h2 : idx.length = Ds.length) (l : List (List Nat)) (hl : ∀ s ∈ l, InB Ds s)
    (h0 : List.replicate Ds.length 0 ∈ l) (hm : Ds.map (· - 1) ∈ l) :
    offsetsAfter Ds ns idx (List.replicate Ds.length 0) l = centreOffset Ds idx := by
  induction Ds generalizing ns idx l with
  | nil =>
    have : ∀ (l : List (List Nat)) (v : List Int), v = [] → offsetsAfter [] ns idx v l = [] := by
      intro l
      induction l with
      | nil => intro v hv; exact hv
      | cons s l ih => intro v hv; exact ih _ (by simp [stencilPoint])
    exact (this l _ rfl).trans (by cases idx <;> rfl)
  | cons D Ds ih =>
    obtain ⟨n, ns, rfl⟩ := List.exists_cons_of_length_eq_add_one h1
    obtain ⟨i, idx, rfl⟩ := List.exists_cons_of_length_eq_add_one h2
    simp only [List.length_cons, Nat.add_right_cancel_iff] at h1 h2
    have hne : ∀ s ∈ l, s ≠ [] := by
      rintro s hs rfl
      have := hl [] hs
      simp [InB] at this
    rw [List.length_cons, List.replicate_succ, offsets_cons D n i Ds ns idx 0 _ l hne, centreOffset]
    have hdec : ∀ s ∈ l, ∃ x t, s = x :: t ∧ x < D ∧ InB Ds t := by
      intro s hs
      obtain ⟨x, t, rfl⟩ := List.exists_cons_of_ne_nil (hne s hs)
      have := hl _ hs
      exact ⟨x, t, rfl, this.1, this.2⟩
    rw [axis_fold D n i]
    · rw [ih ns idx h1 h2 (l.map List.tail)]
      · intro s hs
        obtain ⟨t, ht, rfl⟩ := List.mem_map.1 hs
        obtain ⟨x, u, rfl, _, hu⟩ := hdec t ht
        exact hu
      · exact List.mem_map.2 ⟨_, h0, rfl⟩
      · exact List.mem_map.2 ⟨_, hm, rfl⟩
    · intro s hs
      obtain ⟨t, ht, rfl⟩ := List.mem_map.1 hs
      obtain ⟨x, u, rfl, hx, _⟩ := hdec t ht
      exact hx
    · exact List.mem_map.2 ⟨_, h0, rfl⟩
    · exact List.mem_map.2 ⟨_, hm, rfl⟩

theorem replicate_inB {Ds : List Nat} (h : 0 ∉ Ds) : InB Ds (List.replicate Ds.length 0) ∧ InB Ds (Ds.map (· - 1)) := by
  induction Ds with
  | nil => exact ⟨trivial, trivial⟩
  | cons D Ds ih =>
    simp only [List.mem_cons, not_or] at h
    have := ih h.2
    exact ⟨⟨by omega, this.1⟩, ⟨show D - 1 < D by omega, this.2⟩⟩

theorem stencilLoop_eq (zero : α) (f : List Int → Arr α → ExceptT Fail m (Option α)) (a : Arr α) (hw : a.WF) (Ds : List Nat) (h1 : a.shape.length = Ds.length)
    (hne : Ds ≠ []) (h0 : 0 ∉ Ds) (n i : Nat) :
    stencilLoop zero f a Ds n i (List.replicate Ds.length 0) =
      (List.range' i n).mapM (fun k => stencilCall f (centreOffset Ds (unflat a.shape k)) (windowOf zero a Ds (unflat a.shape k))) := by
  induction n generalizing i with
  | zero => simp [stencilLoop]
  | succ n ih =>
    have hsz : 0 < size Ds := by
      have := flat_lt (replicate_inB h0).1
      omega
    have hfill := stencilFill_eq zero a hw Ds (unflat a.shape i) h1 (by rw [unflat_length, h1]) (size Ds) 0 (by omega) (List.replicate Ds.length 0) (by simp)
    rw [Nat.zero_mod, Nat.zero_add, Nat.mod_self, unflat_zero] at hfill
    rw [stencilLoop, icIndexes_strides, prod_eq_size hne, h1, hfill, ofRes_ok, pure_bind, List.range'_succ, List.mapM_cons, ih]
    have e1 : (List.range' 0 (size Ds)).map (unflat Ds) = allIdx Ds := by rw [allIdx_eq, List.range_eq_range']
    have e2 := offsets_eq Ds a.shape (unflat a.shape i) h1 (by rw [unflat_length, h1]) (allIdx Ds) (fun s hs => mem_allIdx.1 hs) (mem_allIdx.2 (replicate_inB h0).1)
      (mem_allIdx.2 (replicate_inB h0).2)
    have e3 : (List.range' 0 (size Ds)).map (fun j => (a.atInt? (around Ds (unflat a.shape i) (unflat Ds j))).getD zero) = (windowOf zero a Ds (unflat a.shape i)).data := by
      rw [windowOf]
      simp only
      rw [← e1, List.map_map]
      rfl
    simp only [e1, e2, e3]
    rfl

theorem stencilWrite_length {is ro : List Nat} {n i : Nat} {idx ints r : List Nat} (h : stencilWrite is ro n i idx ints = .ok r) : r.length = ints.length := by
  induction n generalizing i idx ints with
  | zero => rw [stencilWrite] at h; cases h; rfl
  | succ n ih =>
    rw [stencilWrite] at h
    cases hv : ro[i]? with
    | none => rw [hv] at h; cases h
    | some v =>
      rw [hv] at h
      simp only at h
      split at h
      · have := ih h
        rwa [List.length_set] at this
      · cases h

theorem not_mem_of_size {l : List Nat} (h : size l ≠ 0) : 0 ∉ l := by
  induction l with
  | nil => simp
  | cons n l ih =>
    rw [size] at h
    simp only [List.mem_cons, not_or]
    refine ⟨?_, ih ?_⟩
    · rintro rfl; simp at h
    · intro h'; rw [h'] at h; simp at h

theorem stencilShape_ok {is ro : List Nat} {rank : Nat} {D : List Nat} (h : stencilShape is ro rank = .ok D) : D.length = rank ∧ 0 ∉ D := by
  rw [stencilShape] at h
  split at h
  · cases h
  · split at h
    · cases h
    · split at h
      · cases h
      · simp only at h
        split at h
        · cases h
        · rename_i ints hw
          split at h
          · cases h
          · rename_i hp
            cases h
            have hl : (ints.take rank).length = rank := by
              have := stencilWrite_length hw
              simp only [List.length_replicate] at this
              rw [List.length_take]; omega
            refine ⟨hl, ?_⟩
            rcases Nat.eq_zero_or_pos rank with rfl | hr
            · simp
            · rw [prod_eq_size (by intro h0; rw [h0] at hl; simp at hl; omega)] at hp
              exact not_mem_of_size hp

/-- writing a list that fits -/
theorem stencilWrite_eq (is ro : List Nat) (n i : Nat) (ints : List Nat) (h1 : i + n = size is) (h2 : ro.length = size is) (h3 : size is ≤ ints.length) :
    stencilWrite is ro n i (unflat is (i % size is)) ints = .ok (ints.take i ++ ro.drop i ++ ints.drop (size is)) := by
  induction n generalizing i ints with
  | zero =>
    rw [stencilWrite, show i = size is by omega, List.drop_eq_nil_of_le (by omega : ro.length ≤ size is), List.append_nil, List.take_append_drop]
  | succ n ih =>
    have hlt : i < size is := by omega
    rw [Nat.mod_eq_of_lt hlt, stencilWrite, List.getElem?_eq_getElem (by omega : i < ro.length)]
    simp only
    rw [icIndex_strides (unflat_length ..), flat_unflat hlt, if_pos (by omega : i < ints.length), incArrayIndex_unflat hlt,
      ih (i + 1) _ (by omega) (by rw [List.length_set]; exact h3)]
    congr 1
    rw [List.drop_set_of_lt hlt, List.drop_eq_getElem_cons (by omega : i < ro.length), List.take_succ_eq_append_getElem (by rw [List.length_set]; omega),
      List.take_set_of_le (Nat.le_refl _), List.getElem_set_self]
    simp

/-- RO is a vector of at most as many lengths as R has axes: the stencil has these lengths along the leading axes and the length 1 along the others. -/
theorem C76_vector (ro : List Nat) (rank : Nat) (h1 : ro ≠ []) (h2 : ro.length ≤ rank) (h0 : 0 ∉ ro) :
    stencilShape [ro.length] ro rank = .ok (ro ++ List.replicate (rank - ro.length) 1) := by
  have hpos := List.length_pos_iff.2 h1
  have hw := stencilWrite_eq [1, ro.length] ro ro.length 0 (List.replicate (2 * rank) 1) (by simp [size]) (by simp [size]) (by simp [size]; omega)
  rw [Nat.zero_mod, unflat_zero] at hw
  have hp : prod [ro.length] = ro.length := by simp [prod]
  rw [stencilShape, if_neg (by simp), List.getLast?_singleton]
  simp only [List.length_singleton, if_true]
  rw [if_neg (by omega), hp, hw]
  simp only
  have ht : (List.take 0 (List.replicate (2 * rank) 1) ++ List.drop 0 ro ++ List.drop (size [1, ro.length]) (List.replicate (2 * rank) 1)).take rank =
      ro ++ List.replicate (rank - ro.length) 1 := by
    simp only [List.take_zero, List.nil_append, List.drop_zero, List.drop_replicate]
    rw [List.take_append, List.take_of_length_le h2, List.take_replicate]
    congr 2
    simp [size]; omega
  rw [ht, if_neg]
  rw [prod_eq_size (by simp [h1]), size_append]
  have e1 := size_pos_of h0
  have e2 : size (List.replicate (rank - ro.length) 1) = 1 := by
    induction rank - ro.length with
    | zero => rfl
    | succ k ih => rw [List.replicate_succ, size, ih]
  rw [e2]; omega

/-- RO is a matrix of two rows with one column for every axis of R: the first row is the shape of the stencil; the second row, the movement, has
no effect. -/
theorem C76_matrix (ro move : List Nat) (h1 : ro ≠ []) (hm : move.length = ro.length) (h0 : 0 ∉ ro) :
    stencilShape [2, ro.length] (ro ++ move) ro.length = .ok ro := by
  have hpos := List.length_pos_iff.2 h1
  have hw := stencilWrite_eq [2, ro.length] (ro ++ move) (2 * ro.length) 0 (List.replicate (2 * ro.length) 1) (by simp [size]) (by simp [size, hm]; omega) (by simp [size])
  rw [Nat.zero_mod, unflat_zero] at hw
  have hp : prod [2, ro.length] = 2 * ro.length := by simp [prod]
  rw [stencilShape, if_neg (by simp)]
  simp only [List.getLast?_cons_cons, List.getLast?_singleton]
  rw [if_neg (by omega), if_neg (by simp), hp, hw]
  simp only
  have ht : (List.take 0 (List.replicate (2 * ro.length) 1) ++ List.drop 0 (ro ++ move) ++ List.drop (size [2, ro.length]) (List.replicate (2 * ro.length) 1)).take ro.length = ro := by
    simp [size]
  rw [ht, if_neg]
  rw [prod_eq_size h1]
  have := size_pos_of h0
  omega

/-- A stencil that covers more axes than R has, an RO of more than two axes or a stencil without elements is an error. -/
theorem C76_rejected (is ro : List Nat) (rank : Nat) :
    (is.length > 2 → stencilShape is ro rank = .error .err) ∧ (∀ n, n > rank → is.length ≤ 2 → is.getLast? = some n → stencilShape is ro rank = .error .err) ∧
    (∀ ks : List Nat, ks ≠ [] → ks.length ≤ rank → 0 ∈ ks → stencilShape [ks.length] ks rank = .error .err) := by
  refine ⟨fun h => if_pos h, ?_, ?_⟩
  · intro n hn h2 hl
    rw [stencilShape, if_neg (by omega), hl]
    exact if_pos hn
  · intro ks h1 h2 h0
    have hpos := List.length_pos_iff.2 h1
    have hw := stencilWrite_eq [1, ks.length] ks ks.length 0 (List.replicate (2 * rank) 1) (by simp [size]) (by simp [size]) (by simp [size]; omega)
    rw [Nat.zero_mod, unflat_zero] at hw
    have hp : prod [ks.length] = ks.length := by simp [prod]
    rw [stencilShape, if_neg (by simp), List.getLast?_singleton]
    simp only [List.length_singleton, if_true]
    rw [if_neg (by omega), hp, hw]
    simp only
    have ht : (List.take 0 (List.replicate (2 * rank) 1) ++ List.drop 0 ks ++ List.drop (size [1, ks.length]) (List.replicate (2 * rank) 1)).take rank =
        (ks ++ List.replicate (2 * rank - ks.length) 1).take rank := by
      simp [size]
    rw [if_pos]
    rw [ht, List.take_append, List.take_of_length_le h2, prod_eq_size (by simp [h1]), size_append]
    have : size ks = 0 := Nat.eq_zero_of_not_pos (fun h => not_mem_of_size (by omega) h0)
    rw [this, Nat.zero_mul]

/-- For every element of R, in row-major order, f is called once with the part of R under the stencil that is centred on the element (zeros
outside of R); the results, which must not be arrays, are the elements of the result, which has the shape of R.  The first failing call ends
the evaluation. -/
theorem C76_stencil (zero : α) (f : List Int → Arr α → ExceptT Fail m (Option α)) (is ro : List Nat) (a : Arr α) (hw : a.WF) (hs : a.shape ≠ []) (D : List Nat)
    (hD : stencilShape is ro a.shape.length = .ok D) :
    stencil zero f is ro a = (do
      let xs ← (allIdx a.shape).mapM (fun idx => do
        match ← f (centreOffset D idx) (windowOf zero a D idx) with
        | none => throw .err
        | some x => pure x)
      pure ⟨a.shape, xs⟩) := by
  obtain ⟨hl, h0⟩ := stencilShape_ok hD
  have hne : D ≠ [] := by
    rintro rfl
    exact hs (List.length_eq_zero_iff.1 hl.symm)
  rw [stencil, hD, ofRes_ok, pure_bind, prod_eq_size hs, stencilLoop_eq zero f a hw D hl.symm hne h0, allIdx_eq, mapM_map', List.range_eq_range']
  rfl

/-- The left argument tells how many rows of the stencil are before the first element of the axis, if there are any. -/
theorem C76_offset (D idx : List Nat) (h : D.length = idx.length) (k d i : Nat) (hd : D[k]? = some d) (hi : idx[k]? = some i) :
    (centreOffset D idx)[k]? = some (((d / 2 : Nat) : Int) - i) := by
  induction D generalizing idx k with
  | nil => simp at hd
  | cons x D ih =>
    obtain ⟨y, idx, rfl⟩ := List.exists_cons_of_length_eq_add_one h.symm
    cases k with
    | zero => simp at hd hi; subst hd hi; rfl
    | succ k => exact ih idx (by simpa using h) k hd hi

/-- The left argument is not the number of padding elements behind the array: for a vector of 5 elements and a stencil of length 3 the call for
the middle element, whose window needs no padding, gets `¯1`. -/
theorem C76_offset_not_padding : centreOffset [3] [2] = [-1] ∧ windowOf 0 (⟨[5], [1, 2, 3, 4, 5]⟩ : Arr Nat) [3] [2] = ⟨[3], [2, 3, 4]⟩ := by
  constructor <;> decide

/-- A matrix RO with fewer columns than R has axes: its second row becomes part of the shape of the stencil. -/
theorem C76_narrow_matrix : (stencilShape [2, 1] [3, 7] 2).toOption = some [3, 7] := by decide

/-- An empty RO crashes. -/
theorem C76_empty (ro : List Nat) (rank : Nat) : stencilShape [] ro rank = .error .panic := rfl

/- a stencil of length 3 over the rows of a matrix: the sum of the neighbours -/
example : (stencil (m := Id) (0 : Nat) (fun _ w => pure (some w.data.sum)) [2] [1, 3] ⟨[2, 3], [1, 2, 3, 4, 5, 6]⟩).run = .ok ⟨[2, 3], [3, 6, 5, 9, 15, 11]⟩ := by rfl
example : (windowOf 0 (⟨[2, 3], [1, 2, 3, 4, 5, 6]⟩ : Arr Nat) [3, 3] [0, 0]).data = [0, 0, 0, 0, 1, 2, 0, 4, 5] := by decide

end Iv

import Verif.SpecShow
import Verif.Props.Scalar
import Verif.Props.Take
import Verif.Props.Reverse
import Verif.Props.Rotate
import Verif.Props.Reshape
import Verif.Props.Catenate
import Verif.Props.Tower
import Verif.Lemmas.FormatScan
/-
C92: the primitive functions on arrays of integers.
-/
namespace Iv
variable {V O : Type} (e : StdEnv V O)

theorem itemIs_type {x : UItem V O} {n : Int} (h : ItemIs x n) : x.type = .int ∨ x.type = .bool := by
  rcases h with h | ⟨b, h, _⟩ <;> subst h
  · exact .inl rfl
  · exact .inr rfl

theorem unifyScan_same (t : Tower V) (t0 : GoType) (xs : List (UItem V O)) : ∀ (s s' : ScanSt V), t.unifyScan false t0 s xs = some s' →
    s'.sametype = s.sametype := by
  induction xs with
  | nil => intro s s' h; cases h; rfl
  | cons x xs ih =>
    intro s s' h
    unfold Tower.unifyScan at h
    split at h
    · cases h
    · rw [ih _ _ h]
      unfold Tower.unifyMax
      split
      · rfl
      · split
        · rfl
        · split <;> rfl

theorem kind_ok {d : List (UItem V O)} {l : List Int} (h : List.Forall₂ ItemIs d l) :
    e.kind d = .int ∨ e.kind d = .bool ∨ e.kind d = .mixed := by
  cases h with
  | nil => exact .inr (.inr rfl)
  | @cons x n xs ns hx hs =>
    have key : ∀ A : UArr V O, A.rep = .mixed → A.items = x :: xs →
        (e.tower.unifyArray e.uni A).rep = .mixed ∨ (e.tower.unifyArray e.uni A).rep = .compact x.type := by
      intro A hr hi
      unfold Tower.unifyArray Tower.unify
      simp only [hr, hi]
      cases hsc : e.tower.unifyScan false x.type
        ⟨e.tower.classOf x.type, if (e.tower.classOf x.type).isSome then x.number else none, true⟩ xs with
      | none => exact .inl hr
      | some s =>
        simp only
        rw [if_pos (unifyScan_same _ _ _ _ _ hsc)]
        unfold Tower.unifySame
        split
        · simp only [hr, hi]
          unfold uniformOf
          split
          · exact .inl hr
          · rename_i u hu
            simp only at hu
            split at hu
            · split at hu
              · cases hu; exact .inr rfl
              · cases hu
            · cases hu
        · split
          · rename_i hst
            rcases itemIs_type hx with h | h <;> rw [h] at hst <;> cases hst
          · exact .inl hr
    unfold StdEnv.kind
    rcases key ⟨.mixed, [(x :: xs).length], x :: xs⟩ rfl rfl with h | h <;> rw [h]
    · exact .inr (.inr rfl)
    · rcases itemIs_type hx with h | h <;> rw [h]
      · exact .inl rfl
      · exact .inr (.inl rfl)

/-! ### Elements -/

/-- the integer of a Bool or an Int -/
theorem itemIs_num {x : UItem V O} {n : Int} (h : ItemIs x n) :
    ∃ t : TNum V, x = .num t ∧ (t = .int n ∨ ∃ b : Bool, t = .bool b ∧ n = if b then 1 else 0) := by
  rcases h with h | ⟨b, h, hn⟩
  · exact ⟨_, h, .inl rfl⟩
  · exact ⟨_, h, .inr ⟨b, rfl, hn⟩⟩

/-- a function that handles integers, and Bools either not at all or like the integers -/
theorem arith2_items (t : Tower V) (fn : TNum V → TNum V → Option (TNum V)) (g : Int → Int → Int)
    (hi : ∀ i j, ∃ v, fn (.int i) (.int j) = some v ∧ ItemIs (O := O) (.num v) (g i j))
    (hb : ∀ a b : Bool, fn (.bool a) (.bool b) = none ∨
      ∃ v, fn (.bool a) (.bool b) = some v ∧ ItemIs (O := O) (.num v) (g (if a then 1 else 0) (if b then 1 else 0)))
    (x y : TNum V) (m n : Int) (hx : ItemIs (O := O) (.num x) m) (hy : ItemIs (O := O) (.num y) n) :
    ∃ v, t.arith2 fn x y = .ok v ∧ ItemIs (O := O) (.num v) (g m n) := by
  obtain ⟨v, h1, h2⟩ := hi m n
  rcases hx with h | ⟨a, h, ha⟩ <;> rcases hy with h' | ⟨b, h', hb'⟩ <;> cases h <;> cases h'
  · exact ⟨v, C34_direct t fn _ _ rfl v h1, h2⟩
  · subst hb'
    exact ⟨v, (C34_bool_int t fn b m v).2 h1, h2⟩
  · subst ha
    exact ⟨v, (C34_bool_int t fn a n v).1 h1, h2⟩
  · subst ha hb'
    rcases hb a b with h0 | ⟨w, h0, h3⟩
    · refine ⟨v, ?_, h2⟩
      unfold Tower.arith2
      have : ((t.len : Int) - (-2)).toNat = t.len + 2 := by omega
      simp only [sameGoType, if_true, h0, Tower.sameType, bind, Except.bind, Tower.toNumeric, cls, this, Tower.arith2Loop, Tower.uptype,
        bool2int, h1]
    · exact ⟨w, C34_direct t fn _ _ rfl w h0, h3⟩

theorem arith1_items (t : Tower V) (fn : TNum V → Option (TNum V)) (g : Int → Int)
    (hi : ∀ i, ∃ v, fn (.int i) = some v ∧ ItemIs (O := O) (.num v) (g i))
    (hb : ∀ a : Bool, fn (.bool a) = none) (k : Nat)
    (x : TNum V) (m : Int) (hx : ItemIs (O := O) (.num x) m) :
    ∃ v, t.arith1 fn (k + 2) x = some (.ok v) ∧ ItemIs (O := O) (.num v) (g m) := by
  obtain ⟨v, h1, h2⟩ := hi m
  rcases hx with h | ⟨a, h, ha⟩ <;> cases h
  · refine ⟨v, ?_, h2⟩
    unfold Tower.arith1
    rw [h1]
  · subst ha
    refine ⟨v, ?_, h2⟩
    unfold Tower.arith1
    simp only [hb, Tower.toNumeric, Tower.arith1Loop, Tower.uptype, bool2int, h1]

theorem item2_ok {p : Calc.Prim} {g : Int → Int → Int} (hp : Calc.numbers2 p = some g) {x y : UItem V O} {m n : Int}
    (hx : ItemIs x m) (hy : ItemIs y n) : ∃ z, e.item2 p x y = .ok z ∧ ItemIs z (g m n) := by
  obtain ⟨x, rfl, -⟩ := itemIs_num hx
  obtain ⟨y, rfl, -⟩ := itemIs_num hy
  have hi : ∀ i j, ∃ v, e.fn2 p (.int i) (.int j) = some v ∧ ItemIs (O := O) (.num v) (g i j) := by
    intro i j
    cases p <;> simp only [Calc.numbers2, Option.some.injEq, reduceCtorEq] at hp <;> subst hp
    case add => exact ⟨_, rfl, .inl rfl⟩
    case sub => exact ⟨_, rfl, .inl rfl⟩
    case mul => exact ⟨_, rfl, .inl rfl⟩
    case min =>
      refine ⟨if i < j then .int i else .int j, ?_, ?_⟩
      · simp only [StdEnv.fn2, cmpOf, StdEnv.less, cmpNum, compareFn, intLess, Option.map_some, decide_eq_true_eq]
      · by_cases h : i < j <;> simp only [h, if_true, if_false] <;> exact .inl rfl
    case max =>
      refine ⟨if i < j then .int j else .int i, ?_, ?_⟩
      · simp only [StdEnv.fn2, cmpOf, StdEnv.less, cmpNum, compareFn, intLess, Option.map_some, decide_eq_true_eq]
      · by_cases h : i < j <;> simp only [h, if_true, if_false] <;> exact .inl rfl
    all_goals
      refine ⟨_, rfl, .inr ⟨_, rfl, ?_⟩⟩
      first
      | rfl
      | (simp only [Calc.truth]
         by_cases h1 : i = j <;> by_cases h2 : i < j <;> simp [h1, h2] <;> omega)
  have hb : ∀ a b : Bool, e.fn2 p (.bool a) (.bool b) = none ∨
      ∃ v, e.fn2 p (.bool a) (.bool b) = some v ∧ ItemIs (O := O) (.num v) (g (if a then 1 else 0) (if b then 1 else 0)) := by
    intro a b
    cases p <;> simp only [Calc.numbers2, Option.some.injEq, reduceCtorEq] at hp <;> subst hp
    case add => exact .inl rfl
    case sub => exact .inl rfl
    case mul => exact .inl rfl
    all_goals
      refine .inr ⟨_, rfl, ?_⟩
      cases a <;> cases b <;> exact .inr ⟨_, rfl, rfl⟩
  have key := arith2_items e.tower _ _ hi hb x y m n hx hy
  obtain ⟨v, h1, h2⟩ := key
  refine ⟨.num v, ?_, h2⟩
  unfold StdEnv.item2
  simp only [h1]
  rfl

theorem item1_ok {p : Calc.Prim} {g : Int → Int} (hp : Calc.numbers1 p = some g) {x : UItem V O} {m : Int}
    (hx : ItemIs x m) : ∃ z, e.item1 p x = .ok z ∧ ItemIs z (g m) := by
  obtain ⟨x, rfl, -⟩ := itemIs_num hx
  have hi : ∀ i, ∃ v, e.fn1 p (.int i) = some v ∧ ItemIs (O := O) (.num v) (g i) := by
    intro i
    cases p <;> simp only [Calc.numbers1, Option.some.injEq, reduceCtorEq] at hp <;> subst hp
    · exact ⟨_, rfl, .inl rfl⟩
    · exact ⟨_, rfl, .inl rfl⟩
    · refine ⟨_, rfl, .inl ?_⟩
      congr 2
      by_cases h : i > 0
      · rw [if_pos h, Int.sign_eq_one_of_pos h]
      · rw [if_neg h]
        by_cases h' : i < 0
        · rw [if_pos h', Int.sign_eq_neg_one_of_neg h']
        · rw [if_neg h', show i = 0 by omega]; rfl
  have hb : ∀ a : Bool, e.fn1 p (.bool a) = none := by
    intro a
    cases p <;> rfl
  have key := arith1_items e.tower _ _ hi hb (e.tower.len + 1) x m hx
  obtain ⟨v, h1, h2⟩ := key
  refine ⟨.num v, ?_, h2⟩
  unfold StdEnv.item1
  simp only [h1]
  rfl

theorem itemIndex_ok {x : UItem V O} {n : Int} (h : ItemIs x n) : e.itemIndex x = some n := by
  rcases h with h | ⟨b, h, hn⟩ <;> subst h
  · rfl
  · subst hn; rfl

/-! ### Arrays -/

theorem mapM_items {α β : Type} {f : α → Res (UItem V O)} {g : β → Int} {R : α → β → Prop}
    (h : ∀ x n, R x n → ∃ z, f x = .ok z ∧ ItemIs z (g n)) {d : List α} {l : List β} (hd : List.Forall₂ R d l) :
    ∃ r, d.mapM f = .ok r ∧ List.Forall₂ ItemIs r (l.map g) := by
  induction hd with
  | nil => exact ⟨[], rfl, .nil⟩
  | @cons x n xs ns hx _ ih =>
    obtain ⟨z, h1, h2⟩ := h x n hx
    obtain ⟨r, h3, h4⟩ := ih
    refine ⟨z :: r, ?_, .cons h2 h4⟩
    rw [List.mapM_cons, h1]
    simp only [bind, Except.bind, h3, pure, Except.pure]

theorem shows_arr (e : StdEnv V O) {d : List (UItem V O)} {s : List Nat} {l : List Int} (hs : s ≠ []) (hl : l.length = size s)
    (hne : l ≠ []) (h : List.Forall₂ ItemIs d l) : Shows (.arr (e.kind d) ⟨s, d⟩) ⟨s, l⟩ :=
  .arr _ d ⟨s, l⟩ hs hl hne (kind_ok e h) h

theorem nonEmpty_of {d : List (UItem V O)} {a : Arr Int} (hs : a.shape ≠ []) (hw : a.WF) (hne : a.data ≠ [])
    (h : List.Forall₂ ItemIs d a.data) : NonEmpty (⟨a.shape, d⟩ : Arr (UItem V O)) := by
  refine ⟨?_, ?_, hs⟩
  · show d.length = _
    rw [h.length_eq]; exact hw
  · intro h'
    have := h.length_eq
    rw [show d = [] from h'] at this
    exact hne (List.eq_nil_of_length_eq_zero this.symm)

theorem forall2_single {x : UItem V O} {l : List Int} (h : List.Forall₂ ItemIs [x] l) : ∃ n, l = [n] ∧ ItemIs x n := by
  cases h with
  | cons h1 h2 => cases h2; exact ⟨_, rfl, h1⟩

theorem single_of_length {α β : Type} {R : α → β → Prop} {d : List α} {l : List β} (h : List.Forall₂ R d l) (hl : l.length = 1) :
    ∃ x n, d = [x] ∧ l = [n] ∧ R x n := by
  cases h with
  | nil => cases hl
  | cons h1 h2 => cases h2 with
    | nil => exact ⟨_, _, rfl, rfl, h1⟩
    | cons _ _ => simp at hl

theorem zip_items {d d' : List (UItem V O)} {l l' : List Int} (hd : List.Forall₂ ItemIs d l) (hd' : List.Forall₂ ItemIs d' l')
    (hlen : l.length = l'.length) :
    List.Forall₂ (fun (p : UItem V O × UItem V O) (q : Int × Int) => ItemIs p.1 q.1 ∧ ItemIs p.2 q.2) (d.zip d') (l.zip l') := by
  induction hd generalizing d' l' with
  | nil => cases hd' <;> exact .nil
  | cons h1 h2 ih =>
    cases hd' with
    | nil => simp at hlen
    | cons h3 h4 => exact .cons ⟨h1, h3⟩ (ih h4 (by simpa using hlen))

/-- the scalar functions -/
theorem scalarDyadic_ok {f : UItem V O → UItem V O → Res (UItem V O)} {g : Int → Int → Int}
    (hf : ∀ x y m n, ItemIs x m → ItemIs y n → ∃ z, f x y = .ok z ∧ ItemIs z (g m n))
    {v w : AVal V O} {a b c : Arr Int} (hv : Shows v a) (hw : Shows w b) (hc : Calc.elementwise g a b = some c) :
    ∃ u, scalarDyadic e.kind f v w = .ok u ∧ Shows u c := by
  have map1 : ∀ (x : UItem V O) (m : Int), ItemIs x m → ∀ (d : List (UItem V O)) (l : List Int), List.Forall₂ ItemIs d l →
      ∃ r, d.mapM (fun y => f x y) = .ok r ∧ List.Forall₂ ItemIs r (l.map (fun n => g m n)) := by
    intro x m hx d l hd
    exact mapM_items (g := fun n => g m n) (fun y n hy => hf x y m n hx hy) hd
  have map2 : ∀ (y : UItem V O) (n : Int), ItemIs y n → ∀ (d : List (UItem V O)) (l : List Int), List.Forall₂ ItemIs d l →
      ∃ r, d.mapM (fun x => f x y) = .ok r ∧ List.Forall₂ ItemIs r (l.map (fun m => g m n)) := by
    intro y n hy d l hd
    exact mapM_items (g := fun m => g m n) (fun x m hx => hf x y m n hx hy) hd
  cases hv with
  | scalar x m hx =>
    cases hw with
    | scalar y n hy =>
      cases hc
      obtain ⟨z, h1, h2⟩ := hf x y m n hx hy
      refine ⟨.scalar z, ?_, .scalar z _ h2⟩
      rw [C33_scalars, h1]; rfl
    | arr k d b hs hwf hne hk hd =>
      simp only [Calc.elementwise] at hc
      rw [if_neg (Ne.symm hs), if_neg hs, if_pos (by rfl)] at hc
      cases hc
      obtain ⟨r, h1, h2⟩ := map1 x m hx d b.data hd
      refine ⟨.arr (e.kind r) ⟨b.shape, r⟩, ?_, shows_arr e hs (by rw [List.length_map]; exact hwf) (by simpa using hne) h2⟩
      rw [(C33_scalar_extension e.kind f k x ⟨b.shape, d⟩ (nonEmpty_of hs hwf hne hd)).1, h1]
      rfl
  | arr k d a hs hwf hne hk hd =>
    cases hw with
    | scalar y n hy =>
      simp only [Calc.elementwise] at hc
      rw [if_neg hs] at hc
      cases hc
      obtain ⟨r, h1, h2⟩ := map2 y n hy d a.data hd
      refine ⟨.arr (e.kind r) ⟨a.shape, r⟩, ?_, shows_arr e hs (by rw [List.length_map]; exact hwf) (by simpa using hne) h2⟩
      rw [(C33_scalar_extension e.kind f k y ⟨a.shape, d⟩ (nonEmpty_of hs hwf hne hd)).2, h1]
      rfl
    | arr k' d' b hs' hwf' hne' hk' hd' =>
      have hA := nonEmpty_of hs hwf hne hd
      have hB := nonEmpty_of hs' hwf' hne' hd'
      simp only [Calc.elementwise] at hc
      by_cases h : a.shape = b.shape
      · rw [if_pos h] at hc
        cases hc
        have hlen : a.data.length = b.data.length := by rw [hwf, hwf', h]
        obtain ⟨r, h1, h2⟩ := mapM_items (f := fun p => f p.1 p.2) (g := fun q : Int × Int => g q.1 q.2)
          (fun p q hpq => hf p.1 p.2 q.1 q.2 hpq.1 hpq.2) (zip_items hd hd' hlen)
        have hzw : (a.data.zip b.data).map (fun q : Int × Int => g q.1 q.2) = List.zipWith g a.data b.data := by
          rw [List.zip, List.map_zipWith]
        rw [hzw] at h2
        refine ⟨.arr (e.kind r) ⟨a.shape, r⟩, ?_, shows_arr e hs ?_ ?_ h2⟩
        · rw [C33_same_shape e.kind f k k' ⟨a.shape, d⟩ ⟨b.shape, d'⟩ hA hB h]
          simp only [h1, bind, Except.bind, pure, Except.pure]
        · rw [List.length_zipWith, ← hlen, Nat.min_self]; exact hwf
        · intro h0
          have := congrArg List.length h0
          rw [List.length_zipWith, ← hlen, Nat.min_self] at this
          exact hne (List.eq_nil_of_length_eq_zero this)
      · rw [if_neg h, if_neg hs'] at hc
        by_cases h1 : a.data.length = 1
        · rw [if_pos h1] at hc
          cases hc
          obtain ⟨x, m, rfl, hm, hx⟩ := single_of_length hd h1
          rw [hm]
          obtain ⟨r, g1, g2⟩ := map1 x m hx d' b.data hd'
          refine ⟨.arr (e.kind r) ⟨b.shape, r⟩, ?_, shows_arr e hs' (by rw [List.length_map]; exact hwf') (by simpa using hne') g2⟩
          rw [(C33_single_extension e.kind f k k' x a.shape ⟨b.shape, d'⟩ hB hs h).1, g1]
          rfl
        · rw [if_neg h1] at hc
          by_cases h2 : b.data.length = 1
          · rw [if_pos h2] at hc
            cases hc
            obtain ⟨y, n, rfl, hn, hy⟩ := single_of_length hd' h2
            rw [hn]
            obtain ⟨r, g1, g2⟩ := map2 y n hy d a.data hd
            refine ⟨.arr (e.kind r) ⟨a.shape, r⟩, ?_, shows_arr e hs (by rw [List.length_map]; exact hwf) (by simpa using hne) g2⟩
            have h3 : 1 < d.length := by
              have := List.length_pos_iff.2 hne
              rw [hd.length_eq]; omega
            rw [(C33_single_extension e.kind f k' k y b.shape ⟨a.shape, d⟩ hA hs' (Ne.symm h)).2 h3, g1]
            rfl
          · rw [if_neg h2] at hc
            cases hc

theorem scalarMonadic_ok {f : UItem V O → Res (UItem V O)} {g : Int → Int}
    (hf : ∀ x m, ItemIs x m → ∃ z, f x = .ok z ∧ ItemIs z (g m))
    {v : AVal V O} {a : Arr Int} (hv : Shows v a) :
    ∃ u, scalarMonadic e.kind f v = .ok u ∧ Shows u ⟨a.shape, a.data.map g⟩ := by
  cases hv with
  | scalar x m hx =>
    obtain ⟨z, h1, h2⟩ := hf x m hx
    refine ⟨.scalar z, ?_, .scalar z _ h2⟩
    rw [(C33_monadic e.kind f .int ⟨[1], [x]⟩ ⟨by simp [Arr.WF, size], by simp, by simp⟩ x).2, h1]; rfl
  | arr k d a hs hwf hne hk hd =>
    obtain ⟨r, h1, h2⟩ := mapM_items (f := f) (g := g) hf hd
    refine ⟨.arr (e.kind r) ⟨a.shape, r⟩, ?_, shows_arr e hs (by rw [List.length_map]; exact hwf) (by simpa using hne) h2⟩
    obtain ⟨x, xs, hx⟩ := List.exists_cons_of_ne_nil (nonEmpty_of hs hwf hne hd).2.1
    rw [(C33_monadic e.kind f k ⟨a.shape, d⟩ (nonEmpty_of hs hwf hne hd) x).1, h1]; rfl

theorem indexes_ok {v : AVal V O} {a : Arr Int} (hv : Shows v a) (h : a.shape.length ≤ 1) : e.indexes v = some a.data := by
  cases hv with
  | scalar x n hx =>
    simp only [StdEnv.indexes, itemIndex_ok e hx, Option.map_some]
  | arr k d a hs hwf hne hk hd =>
    have h1 : a.shape.length = 1 := by
      have := List.length_pos_iff.2 hs
      omega
    simp only [StdEnv.indexes, h1, if_true]
    generalize a.data = l at hd
    clear hwf hne
    induction hd with
    | nil => rfl
    | cons h1 _ ih => rw [List.mapM_cons, itemIndex_ok e h1, ih]; rfl

theorem items_ints (l : List Int) : List.Forall₂ ItemIs (l.map (fun x => (.num (.int x) : UItem V O))) l := by
  induction l with
  | nil => exact .nil
  | cons x xs ih => exact .cons (.inl rfl) ih

theorem shows_vector (k : Kind) (hk : k = .int ∨ k = .bool ∨ k = .mixed) {d : List (UItem V O)} {l : List Int} {n : Nat} (hn : n = l.length)
    (hne : l ≠ []) (h : List.Forall₂ ItemIs d l) : Shows (.arr k ⟨[n], d⟩) (Calc.vector l) := by
  subst hn
  exact .arr k d (Calc.vector l) (by simp [Calc.vector]) (by simp [Calc.vector, Arr.WF, size]) hne hk h

/-- the functions with one argument -/
theorem prim1_ok {origin : Int} {p : Calc.Prim} {v : AVal V O} {a b : Arr Int} (hv : Shows v a) (hb : Calc.apply1 origin p a = some b) :
    ∃ u, e.prim1 origin p v = .ok u ∧ Shows u b := by
  have sc : ∀ g, Calc.numbers1 p = some g → some (⟨a.shape, a.data.map g⟩ : Arr Int) = some b →
      ∃ u, scalarMonadic e.kind (e.item1 p) v = .ok u ∧ Shows u b := by
    intro g hg hb
    cases hb
    exact scalarMonadic_ok e (fun x m hx => item1_ok e hg hx) hv
  cases p <;> simp only [Calc.apply1, Calc.numbers1, Option.map_some, Option.map_none, reduceCtorEq] at hb
  case add => exact sc _ rfl hb
  case sub => exact sc _ rfl hb
  case mul => exact sc _ rfl hb
  case rho =>
    split at hb
    · cases hb
    · rename_i hs
      cases hb
      cases hv with
      | scalar x n hx => exact absurd rfl hs
      | arr k d a hs' hwf hne hk hd =>
        exact ⟨_, rfl, shows_vector .int (.inl rfl) (by simp) (by simpa using hs') (items_ints _)⟩
  case iota =>
    split at hb
    · rename_i h
      cases hb
      cases hv with
      | arr k d a hs' hwf hne hk hd => exact absurd h.1 hs'
      | scalar x n hx =>
        simp only [List.headD_cons] at h ⊢
        have hn := h.2
        refine ⟨.arr .int ⟨[n.toNat], _⟩, ?_, shows_vector .int (.inl rfl) (by simp) (by simp; omega) (items_ints _)⟩
        simp only [StdEnv.prim1, itemIndex_ok e hx, stdInterval, interval]
        rw [if_neg (by omega), if_neg (by omega)]
        simp only [bind, Except.bind]
        rw [forLoop_ok (g := fun i => origin + (i : Int)) n.toNat (fun _ _ => rfl)]
        simp only [Except.map, intVals, pure, Except.pure, List.map_map]
    · cases hb
  case comma =>
    cases hb
    cases hv with
    | scalar x n hx =>
      exact ⟨_, rfl, shows_vector _ (kind_ok e (.cons hx .nil)) rfl (by simp) (.cons hx .nil)⟩
    | arr k d a hs' hwf hne hk hd =>
      exact ⟨_, C04_ravel e.kind k ⟨a.shape, d⟩, shows_vector _ (kind_ok e hd) hd.length_eq hne hd⟩
  case rev =>
    split at hb
    · rename_i h
      cases hb
      cases hv with
      | scalar x n hx => exact ⟨_, rfl, .scalar x n hx⟩
      | arr k d a hs' hwf hne hk hd =>
        obtain ⟨n, hn⟩ : ∃ n, a.shape = [n] := by
          have := List.length_pos_iff.2 hs'
          exact List.length_eq_one_iff.1 (by omega)
        obtain ⟨s, l⟩ := a
        simp only at hn hd hne
        subst hn
        have hl : n = d.length := by rw [hd.length_eq]; simpa [Arr.WF, size] using hwf.symm
        subst hl
        refine ⟨.arr k ⟨[d.length], d.reverse⟩, ?_, ?_⟩
        · simp only [StdEnv.prim1]
          rw [C08_primitive, if_pos (by simp)]
          show Except.map _ (reverseArr _ _) = _
          have := C08_vector d
          simp only [List.length_cons, List.length_nil]
          rw [show ((if (-1 : Int) < 0 then ((0 + 1 : Nat) : Int) + -1 else -1)).toNat = 0 from rfl, this]
          rfl
        · exact .arr k d.reverse ⟨[d.length], l.reverse⟩ (by simp) (by simp [Arr.WF, size, hd.length_eq]) (by simpa using hne) hk
            (by simpa using hd)
    · cases hb

theorem catCore_vector {α : Type} (v w : List α) :
    catCore 0 ⟨[v.length], v⟩ ⟨[w.length], w⟩ = .ok ⟨[(v ++ w).length], v ++ w⟩ := by
  obtain ⟨r, h1, h2, h3, h4⟩ := catCore_spec 0 (⟨[v.length], v⟩ : Arr α) ⟨[w.length], w⟩ (by simp [Arr.WF, size]) (by simp [Arr.WF, size])
    rfl (by simp) (by intro j hj hj0; simp at hj; omega)
  rw [h1]
  have h3' : r.shape = [(v ++ w).length] := by rw [h3]; simp
  rw [vec_eq h2 h3' rfl ?_]
  intro i hi
  have h := h4 [i] (by rw [h3']; simp [InB]; simpa using hi)
  rw [get?_vec_lt h3' hi] at h
  simp only [List.getD_cons_zero, List.set_cons_zero] at h
  rw [h]
  by_cases hc : i < v.length
  · rw [if_pos hc, get?_vec_lt rfl hc, List.getElem?_append_left hc]
  · have hi' : i < v.length + w.length := by simpa using hi
    rw [if_neg hc, get?_vec_lt rfl (by omega), List.getElem?_append_right (by omega)]

/-- a number and a vector, a vector and a number, two vectors -/
theorem catenate_vectors (uk : List (UItem V O) → Kind) (x : UItem V O) (k k' : Kind) (w u : List (UItem V O)) (hw : w ≠ []) (hu : u ≠ []) :
    catenate uk .last (.scalar x) (.arr k ⟨[w.length], w⟩) = .ok (.arr (uk (x :: w)) ⟨[(x :: w).length], x :: w⟩) ∧
    catenate uk .last (.arr k ⟨[w.length], w⟩) (.scalar x) = .ok (.arr (uk (w ++ [x])) ⟨[(w ++ [x]).length], w ++ [x]⟩) ∧
    catenate uk .last (.arr k ⟨[w.length], w⟩) (.arr k' ⟨[u.length], u⟩) = .ok (.arr (uk (w ++ u)) ⟨[(w ++ u).length], w ++ u⟩) := by
  have hrs : ∀ n, reshapeScalar 0 x [n] = .ok ⟨[[x].length], [x]⟩ := by
    intro n
    unfold reshapeScalar
    rw [if_pos (by simp)]
    rfl
  have ne : ∀ (k : Kind) (l : List (UItem V O)), l ≠ [] → (Val.arr k ⟨[l.length], l⟩).noElems = false := fun k l h => noElems_arr h
  have c1 := catCore_vector [x] w
  have c2 := catCore_vector w [x]
  have c3 := catCore_vector w u
  refine ⟨?_, ?_, ?_⟩
  · unfold catenate
    have : splitCatAxis (.scalar x) (.arr k ⟨[w.length], w⟩) .last = .ok (0, false) := rfl
    simp only [bind, Except.bind, this, Bool.false_eq_true, if_false, ne k w hw, show (Val.scalar x).noElems = false from rfl,
      Int.toNat_zero, hrs, catAlign_same 0 _ k ⟨[[x].length], [x]⟩ ⟨[w.length], w⟩ rfl, c1, pure, Except.pure]
    rfl
  · unfold catenate
    have : splitCatAxis (.arr k ⟨[w.length], w⟩) (.scalar x) .last = .ok (-1, false) ∨
        splitCatAxis (.arr k ⟨[w.length], w⟩) (.scalar x) .last = .ok (0, false) := by
      exact .inr rfl
    rcases this with this | this <;>
    simp only [bind, Except.bind, this, Bool.false_eq_true, if_false, ne k w hw, show (Val.scalar x).noElems = false from rfl,
      Int.toNat_zero, hrs, catAlign_same 0 k _ ⟨[w.length], w⟩ ⟨[[x].length], [x]⟩ rfl, c2, pure, Except.pure,
      show (-1 : Int).toNat = 0 from rfl]
  · unfold catenate
    have : splitCatAxis (.arr k ⟨[w.length], w⟩) (.arr k' ⟨[u.length], u⟩) .last = .ok (0, false) := rfl
    simp only [bind, Except.bind, this, Bool.false_eq_true, if_false, ne k w hw, ne k' u hu,
      Int.toNat_zero, catAlign_same 0 k k' ⟨[w.length], w⟩ ⟨[u.length], u⟩ rfl, c3, pure, Except.pure]

theorem count_eq (s : List Nat) : Calc.count s = size s := by
  induction s with
  | nil => rfl
  | cons n s ih =>
    show n * Calc.count s = n * size s
    rw [ih]

theorem cycle_items {d : List (UItem V O)} {l : List Int} (hd : List.Forall₂ ItemIs d l) (hne : l ≠ []) (r : List (UItem V O)) (n : Nat)
    (hl : r.length = n) (h : ∀ k, k < n → r[k]? = d[k % d.length]?) :
    List.Forall₂ ItemIs r ((List.range n).map (fun i => l.getD (i % l.length) 0)) := by
  have hpos := List.length_pos_iff.2 hne
  rw [List.forall₂_iff_get]
  refine ⟨by simp [hl], ?_⟩
  intro i h1 h2
  have hi := h i (by omega)
  have hm : i % l.length < l.length := Nat.mod_lt _ hpos
  have hlen := hd.length_eq
  have hm' : i % d.length < d.length := by rw [hlen]; exact hm
  simp only [List.get_eq_getElem, List.getElem_map, List.getElem_range]
  rw [List.getElem?_eq_getElem h1, List.getElem?_eq_getElem hm'] at hi
  have hi := Option.some.inj hi
  rw [hi, getD_eq_getElem l 0 hm]
  have := (List.forall₂_iff_get.1 hd).2 (i % d.length) hm' (by rw [hlen]; exact hm)
  simp only [List.get_eq_getElem] at this
  simp only [hlen] at this ⊢
  exact this

theorem fill_ok {v : AVal V O} {a : Arr Int} (hv : Shows v a) : ItemIs (e.fill v) 0 := by
  cases hv with
  | scalar x n hx =>
    rcases kind_ok e (.cons hx .nil : List.Forall₂ ItemIs [x] [n]) with h | h | h <;> simp only [StdEnv.fill, h]
    · exact .inl rfl
    · exact .inr ⟨false, rfl, rfl⟩
    · exact .inl rfl
  | arr k d a hs' hwf hne hk hd =>
    rcases hk with h | h | h <;> subst h
    · exact .inl rfl
    · exact .inr ⟨false, rfl, rfl⟩
    · exact .inl rfl

theorem forall2_replicate {x : UItem V O} {n : Int} (h : ItemIs x n) (k : Nat) :
    List.Forall₂ ItemIs (List.replicate k x) (List.replicate k n) := by
  induction k with
  | zero => exact .nil
  | succ k ih => exact .cons h ih

theorem shows_vec {v : AVal V O} {a : Arr Int} (hv : Shows v a) (h : a.shape.length = 1) :
    ∃ k d l, v = .arr k ⟨[d.length], d⟩ ∧ a = Calc.vector l ∧ List.Forall₂ ItemIs d l ∧ l ≠ [] ∧ (k = .int ∨ k = .bool ∨ k = .mixed) := by
  cases hv with
  | scalar x n hx => cases h
  | arr k d a hs' hwf hne hk hd =>
    obtain ⟨n, hn⟩ := List.length_eq_one_iff.1 h
    obtain ⟨s, l⟩ := a
    simp only at hn hd hne
    subst hn
    have hl : n = d.length := by rw [hd.length_eq]; simpa [Arr.WF, size] using hwf.symm
    subst hl
    exact ⟨k, d, l, rfl, by rw [hd.length_eq]; rfl, hd, hne, hk⟩

/-- the rotation of a vector -/
theorem rotate_list {α : Type} (v : List α) (n : Int) (hv : v ≠ []) :
    rotateArr ⟨[1], [n]⟩ ⟨[v.length], v⟩ (-1) = .ok ⟨[v.length], v.drop (n % (v.length : Int)).toNat ++ v.take (n % (v.length : Int)).toNat⟩ := by
  obtain ⟨r, h1, h2, h3, h4⟩ := C09_rotate_vector v n (-1)
  have hp : 0 < v.length := List.length_pos_iff.2 hv
  have e1 := Int.emod_nonneg n (b := (v.length : Int)) (by omega)
  have e2 := Int.emod_lt_of_pos n (b := (v.length : Int)) (by omega)
  rw [h1]
  congr 1
  refine vec_eq h3 h2 (by simp only [List.length_append, List.length_drop, List.length_take]; omega) ?_
  intro i hi
  rw [h4 i hi, ← Int.add_emod_emod]
  generalize hk : n % (v.length : Int) = k at *
  obtain ⟨k, rfl⟩ : ∃ j : Nat, k = j := ⟨k.toNat, by omega⟩
  rw [Int.toNat_natCast]
  have hmod : (((i : Int) + (k : Int)) % (v.length : Int)).toNat = (i + k) % v.length := by
    rw [← Int.natCast_add, ← Int.natCast_mod, Int.toNat_natCast]
  rw [hmod]
  by_cases hc : i + k < v.length
  · rw [Nat.mod_eq_of_lt hc, List.getElem?_append_left (by rw [List.length_drop]; omega), List.getElem?_drop, Nat.add_comm]
  · rw [Nat.mod_eq_sub_mod (by omega), Nat.mod_eq_of_lt (by omega), List.getElem?_append_right (by rw [List.length_drop]; omega),
      List.length_drop, List.getElem?_take_of_lt (by omega)]
    congr 1
    omega

/-- the functions with two arguments -/
theorem prim2_ok {p : Calc.Prim} {v w : AVal V O} {a b c : Arr Int} (hv : Shows v a) (hw : Shows w b) (hc : Calc.apply2 p a b = some c) :
    ∃ u, e.prim2 p v w = .ok u ∧ Shows u c := by
  have sc : ∀ g, Calc.numbers2 p = some g → Calc.elementwise g a b = some c →
      ∃ u, scalarDyadic e.kind (e.item2 p) v w = .ok u ∧ Shows u c := by
    intro g hg hc
    exact scalarDyadic_ok e (fun x y m n hx hy => item2_ok e hg hx hy) hv hw hc
  cases p <;> simp only [Calc.apply2, Calc.numbers2, Option.bind_some, Option.bind_none, reduceCtorEq] at hc
  case rho =>
    split at hc
    · rename_i h
      cases hc
      have hi := indexes_ok e hv h.1
      have hn : a.data = (a.data.map Int.toNat).map Int.ofNat := by
        rw [List.map_map]
        conv => lhs; rw [← List.map_id a.data]
        apply List.map_congr_left
        intro n hn
        have := h.2 n hn
        simp only [id, Function.comp, Int.ofNat_eq_natCast]
        omega
      have hne : a.data ≠ [] := by cases hv <;> first | assumption | simp
      have hS : a.data.map Int.toNat ≠ [] := by simpa using hne
      have hpos : 0 < size (a.data.map Int.toNat) := by
        apply size_pos_of
        intro hn
        obtain ⟨m, hm, hz⟩ := List.mem_map.1 hn
        have := h.2 m hm
        omega
      simp only [StdEnv.prim2, hi, count_eq]
      suffices hh : ∃ u, rho2 (.num (.int 0)) e.kind ((a.data.map Int.toNat).map Int.ofNat) w = .ok u ∧
          Shows u ⟨a.data.map Int.toNat, (List.range (size (a.data.map Int.toNat))).map (fun i => b.data.getD (i % b.data.length) 0)⟩ by
        rw [← hn] at hh; exact hh
      clear hn sc hi
      generalize a.data.map Int.toNat = S at *
      cases hw with
      | scalar y n hy =>
        refine ⟨_, C03_reshape_scalar _ e.kind y S hS, ?_⟩
        have hd : List.Forall₂ ItemIs [y] [n] := .cons hy .nil
        have hd' := cycle_items hd (by simp) (List.replicate (size S) y) (size S) (by simp) (by
          intro k hk
          rw [List.getElem?_replicate, if_pos hk]
          simp [Nat.mod_one])
        exact .arr _ _ ⟨S, _⟩ hS (by simp [Arr.WF]) (by simp; omega) (kind_ok e hd) hd'
      | arr k d b hs hwf hne hk hd =>
        obtain ⟨r, h1, h2, h3, h4⟩ := C03_reshape_cyclic (.num (.int 0)) e.kind k ⟨b.shape, d⟩ (nonEmpty_of hs hwf hne hd).2.1 S hS
        refine ⟨_, h1, ?_⟩
        obtain ⟨rs, rd⟩ := r
        simp only at h2
        subst h2
        have hd' := cycle_items hd hne rd (size rs) h3 h4
        exact .arr _ _ ⟨rs, _⟩ hS (by simp [Arr.WF]) (by simp; omega) hk hd'
    · cases hc
  case comma =>
    split at hc
    · rename_i h
      cases hc
      simp only [StdEnv.prim2]
      cases hv with
      | scalar x m hx =>
        cases hw with
        | scalar y n hy =>
          have hd : List.Forall₂ ItemIs [x, y] [m, n] := .cons hx (.cons hy .nil)
          exact ⟨_, rfl, shows_vector _ (kind_ok e hd) rfl (by simp) hd⟩
        | arr k d b hs hwf hne hk hd =>
          obtain ⟨k, d, l, hv, rfl, hd, hne, hk⟩ := shows_vec (.arr k d b hs hwf hne hk hd) (by
            have := List.length_pos_iff.2 hs
            have := h.2; omega)
          rw [hv]
          have hdn : d ≠ [] := by intro h0; rw [h0] at hd; cases hd; exact hne rfl
          have h1 := (catenate_vectors e.kind x k k d d hdn hdn).1
          have hd' : List.Forall₂ ItemIs (x :: d) (m :: l) := .cons hx hd
          exact ⟨_, h1, shows_vector _ (kind_ok e hd') hd'.length_eq (by simp) hd'⟩
      | arr k d a hs hwf hne hk hd =>
        obtain ⟨k, d, l, hv, rfl, hd, hne, hk⟩ := shows_vec (.arr k d a hs hwf hne hk hd) (by
          have := List.length_pos_iff.2 hs
          have := h.1; omega)
        have hdn : d ≠ [] := by intro h0; rw [h0] at hd; cases hd; exact hne rfl
        rw [hv]
        cases hw with
        | scalar y n hy =>
          have h1 := (catenate_vectors e.kind y k k d d hdn hdn).2.1
          have hd' : List.Forall₂ ItemIs (d ++ [y]) (l ++ [n]) := List.rel_append hd (.cons hy .nil)
          exact ⟨_, h1, shows_vector _ (kind_ok e hd') hd'.length_eq (by simp) hd'⟩
        | arr k' d' b hs' hwf' hne' hk' hd' =>
          obtain ⟨k', d', l', hw, rfl, hd', hne', hk'⟩ := shows_vec (.arr k' d' b hs' hwf' hne' hk' hd') (by
            have := List.length_pos_iff.2 hs'
            have := h.2; omega)
          have hdn' : d' ≠ [] := by intro h0; rw [h0] at hd'; cases hd'; exact hne' rfl
          rw [hw]
          have h1 := (catenate_vectors e.kind (d[0]'(List.length_pos_iff.2 hdn)) k k' d d' hdn hdn').2.2
          have hd' : List.Forall₂ ItemIs (d ++ d') (l ++ l') := List.rel_append hd hd'
          exact ⟨_, h1, shows_vector _ (kind_ok e hd') hd'.length_eq (by simp only [Calc.vector]; simp [hne]) hd'⟩
    · cases hc
  case take =>
    split at hc
    · rename_i h
      cases hc
      cases hv with
      | arr k d a hs hwf hne hk hd => exact absurd h.1 hs
      | scalar x m hx =>
        have hf := fill_ok e hw
        obtain ⟨k, d, l, rfl, rfl, hd, hne, hk⟩ := shows_vec hw h.2.1
        have hm : m ≠ 0 := h.2.2
        simp only [StdEnv.prim2, StdEnv.indexes, itemIndex_ok e hx, Option.map_some, takedrop, bind, Except.bind, pure, Except.pure]
        show ∃ u, _ ∧ Shows u (Calc.vector (if 0 < m then l.take m.natAbs ++ List.replicate (m.natAbs - l.length) 0
          else List.replicate (m.natAbs - l.length) 0 ++ l.drop (l.length - m.natAbs)))
        clear sc h
        have hl := hd.length_eq
        by_cases hp : 0 < m
        · obtain ⟨n, rfl⟩ : ∃ n : Nat, m = n := ⟨m.toNat, by omega⟩
          rw [(C05_take_vector _ d n).1, if_pos hp]
          refine ⟨_, rfl, ?_⟩
          have hd' : List.Forall₂ ItemIs (d.take n ++ List.replicate (n - d.length) (e.fill (.arr k ⟨[d.length], d⟩)))
              (l.take n ++ List.replicate (n - l.length) 0) := by
            rw [← hl]
            exact List.rel_append (List.forall₂_take n hd) (forall2_replicate hf _)
          exact shows_vector k hk (by simp; omega) (by
            intro h0; have := congrArg List.length h0; simp only [List.length_append, List.length_take, List.length_replicate,
              List.length_nil, Int.natAbs_natCast] at this; omega) hd'
        · obtain ⟨n, rfl⟩ : ∃ n : Nat, m = -(n : Int) := ⟨m.natAbs, by omega⟩
          rw [(C05_take_vector _ d n).2, if_neg hp]
          refine ⟨_, rfl, ?_⟩
          have hd' : List.Forall₂ ItemIs (List.replicate (n - d.length) (e.fill (.arr k ⟨[d.length], d⟩)) ++ d.drop (d.length - n))
              (List.replicate (n - l.length) 0 ++ l.drop (l.length - n)) := by
            rw [← hl]
            exact List.rel_append (forall2_replicate hf _) (List.forall₂_drop _ hd)
          simp only [Int.natAbs_neg, Int.natAbs_natCast]
          exact shows_vector k hk (by simp; omega) (by
            intro h0; have := congrArg List.length h0; simp at this; omega) hd'
    · cases hc
  case drop =>
    split at hc
    · rename_i h
      cases hc
      cases hv with
      | arr k d a hs hwf hne hk hd => exact absurd h.1 hs
      | scalar x m hx =>
        obtain ⟨k, d, l, rfl, rfl, hd, hne, hk⟩ := shows_vec hw h.2.1
        have hm : m.natAbs < l.length := h.2.2
        simp only [StdEnv.prim2, StdEnv.indexes, itemIndex_ok e hx, Option.map_some, takedrop, bind, Except.bind, pure, Except.pure]
        show ∃ u, _ ∧ Shows u (Calc.vector (if 0 < m then l.drop m.natAbs else l.take (l.length - m.natAbs)))
        clear sc h
        have hl := hd.length_eq
        by_cases hp : 0 < m
        · obtain ⟨n, rfl⟩ : ∃ n : Nat, m = n := ⟨m.toNat, by omega⟩
          rw [(C06_drop_vector _ d n).1, if_pos hp]
          refine ⟨_, rfl, ?_⟩
          exact shows_vector k hk (by simp; omega) (by
            intro h0; have := congrArg List.length h0; simp at this; omega) (List.forall₂_drop _ hd)
        · obtain ⟨n, rfl⟩ : ∃ n : Nat, m = -(n : Int) := ⟨m.natAbs, by omega⟩
          rw [(C06_drop_vector _ d n).2, if_neg hp]
          refine ⟨_, rfl, ?_⟩
          simp only [Int.natAbs_neg, Int.natAbs_natCast, hl] at hm ⊢
          exact shows_vector k hk (by simp) (by
            intro h0; have := congrArg List.length h0; simp at this; omega) (List.forall₂_take _ hd)
    · cases hc
  case rev =>
    split at hc
    · rename_i h
      cases hc
      cases hv with
      | arr k d a hs hwf hne hk hd => exact absurd h.1 hs
      | scalar x m hx =>
        simp only [StdEnv.prim2, StdEnv.indexes, itemIndex_ok e hx, Option.map_some]
        by_cases h1 : b.shape.length = 1
        · obtain ⟨k, d, l, rfl, rfl, hd, hne, hk⟩ := shows_vec hw h1
          simp only [List.headD_cons, Calc.vector]
          have hl := hd.length_eq
          have hr := rotate_list d m (by intro h0; rw [h0] at hl; exact hne (List.length_eq_zero_iff.1 hl.symm))
          rw [if_neg (by simp), show ([m].length : Nat) = 1 from rfl, hr]
          refine ⟨_, rfl, ?_⟩
          rw [← hl]
          generalize (m % (d.length : Int)).toNat = q
          have hq : List.Forall₂ ItemIs (d.drop q ++ d.take q) (l.drop q ++ l.take q) :=
            List.rel_append (List.forall₂_drop q hd) (List.forall₂_take q hd)
          have hlen : (l.drop q ++ l.take q).length = d.length := by
            rw [List.length_append, List.length_drop, List.length_take]; omega
          have := shows_vector (n := d.length) k hk hlen.symm (by
            intro h0; rw [h0] at hlen; exact hne (List.length_eq_zero_iff.1 (by rw [← hl]; exact hlen.symm))) hq
          rw [Calc.vector, hlen] at this
          rw [hl] at this ⊢
          exact this
        · cases hw with
          | scalar y n hy =>
            refine ⟨.scalar y, rfl, ?_⟩
            simp only [List.headD_cons, List.length_singleton, Nat.cast_one, Int.emod_one, Int.toNat_zero, List.drop_zero, List.take_zero,
              List.append_nil]
            exact .scalar _ _ hy
          | arr k d b hs hwf hne hk hd =>
            have := List.length_pos_iff.2 hs
            have := h.2.1
            omega
    · cases hc
  all_goals exact sc _ rfl hc

end Iv

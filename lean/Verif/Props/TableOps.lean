import Verif.Props.Table
import Verif.Model.TableOps
import Mathlib.Data.List.Perm.Subperm
/-
C67 elementary functions of dictionaries and tables, C68 catenation of dictionaries and tables.
-/
namespace Iv
variable {K V : Type} [DecidableEq K]

/-! ### Specification -/

/-- A proper object: the keys are distinct and have values; all columns of a table are vectors with as many elements as it has rows. -/
def GoodObj (vecLen : V → Option Nat) : DObj K V → Prop
  | .dict d => GoodDict d
  | .tab t => GoodDict t.dict ∧ ∀ k v, t.dict.at k = some v → vecLen v = some t.rows

theorem GoodObj.src {vecLen : V → Option Nat} {o : DObj K V} (h : GoodObj vecLen o) : GoodDict o.src := by
  cases o with
  | dict d => exact h
  | tab t => exact h.1

theorem mapKeys_ok (miss : Fail) (f : K → V → Res V) (src : Dict K V) (ks : List K) (d : Dict K V) (hn : ks.Nodup)
    (h : ∀ k ∈ ks, ∃ v w, src.at k = some v ∧ f k v = .ok w) :
    ∃ d', mapKeys miss f src ks d = .ok d' ∧ d'.keys = d.keys ++ ks ∧ (∀ k, k ∉ ks → d'.at k = d.at k) ∧
      ∀ k ∈ ks, ∃ v w, src.at k = some v ∧ f k v = .ok w ∧ d'.at k = some w := by
  induction ks generalizing d with
  | nil => exact ⟨d, rfl, by simp, fun _ _ => rfl, by simp⟩
  | cons k ks ih =>
    rw [List.nodup_cons] at hn
    obtain ⟨v, w, h1, h2⟩ := h k (by simp)
    obtain ⟨d', e, g1, g2, g3⟩ := ih ⟨d.keys ++ [k], mapSet d.map k w⟩ hn.2 (fun k' hk' => h k' (by simp [hk']))
    have hat : ∀ x, (⟨d.keys ++ [k], mapSet d.map k w⟩ : Dict K V).at x = if k = x then some w else d.at x := fun x => mapGet_set _ _ _ _
    refine ⟨d', ?_, by rw [g1]; simp, ?_, ?_⟩
    · simp only [mapKeys, h1, h2, bind, Except.bind]
      exact e
    · intro x hx
      simp only [List.mem_cons, not_or] at hx
      rw [g2 x hx.2, hat, if_neg (Ne.symm hx.1)]
    · intro x hx
      rcases List.mem_cons.1 hx with rfl | hx
      · exact ⟨v, w, h1, h2, by rw [g2 x hn.1, hat, if_pos rfl]⟩
      · exact g3 x hx

theorem mapKeys_fail (miss : Fail) (f : K → V → Res V) (src : Dict K V) (ks : List K) (d : Dict K V)
    (h : ∃ k ∈ ks, ∃ v e, src.at k = some v ∧ f k v = .error e) : ∃ e, mapKeys miss f src ks d = .error e := by
  induction ks generalizing d with
  | nil => obtain ⟨k, hk, _⟩ := h; cases hk
  | cons k ks ih =>
    simp only [mapKeys]
    cases hv : src.at k with
    | none => exact ⟨_, rfl⟩
    | some v =>
      simp only [bind, Except.bind]
      cases hf : f k v with
      | error e => exact ⟨_, rfl⟩
      | ok w =>
        obtain ⟨k', hk', v', e, h1, h2⟩ := h
        rcases List.mem_cons.1 hk' with rfl | hk'
        · rw [h1] at hv; cases hv; rw [h2] at hf; cases hf
        · exact ih _ ⟨k', hk', v', e, h1, h2⟩

theorem asKind_src (vecLen : V → Option Nat) (b : Bool) (d : Dict K V) : (asKind vecLen b d).src = d ∧ (asKind vecLen b d).isTable = b := by
  cases b <;> exact ⟨rfl, rfl⟩

theorem GoodDict.keys_some {d : Dict K V} (hd : GoodDict d) {k : K} (hk : k ∈ d.keys) : ∃ v, d.at k = some v :=
  Option.isSome_iff_exists.1 ((hd.mem k).1 hk)

/-- a dictionary whose keys `ks` are distinct and that has values for exactly them -/
theorem goodDict_of {d : Dict K V} {ks : List K} (hk : d.keys = ks) (hn : ks.Nodup) (h1 : ∀ k, k ∉ ks → d.at k = none)
    (h2 : ∀ k ∈ ks, ∃ w, d.at k = some w) : GoodDict d := by
  refine ⟨by rw [hk]; exact hn, fun k => ?_⟩
  rw [hk]
  constructor
  · intro h
    obtain ⟨w, e⟩ := h2 k h
    rw [e]; rfl
  · intro h
    by_contra hc
    rw [h1 k hc] at h
    cases h

/-- the rows of a table that is built from its columns, if all are vectors of the same length -/
theorem dict2table_rows (vecLen : V → Option Nat) (d : Dict K V) (hd : GoodDict d) (n : Nat) (hne : d.keys ≠ [])
    (h : ∀ k v, d.at k = some v → vecLen v = some n) : dict2table vecLen d = ⟨d, n⟩ := by
  unfold dict2table
  cases hk : d.keys with
  | nil => exact absurd hk hne
  | cons k ks =>
    obtain ⟨v, hv⟩ := hd.keys_some (k := k) (by rw [hk]; simp)
    simp only [hv, Option.bind_some, h k v hv, Option.getD_some]

/-! ### C67: elementary functions -/

/-- **C67.** An elementary function applied to a dictionary or table is applied to each of its values, and the result has the same keys in the
same order and is again a dictionary or a table. -/
theorem C67_monadic (vecLen : V → Option Nat) (f : V → Res V) (R : DObj K V) (hR : GoodDict R.src)
    (h : ∀ k v, R.src.at k = some v → ∃ w, f v = .ok w) :
    ∃ o, table1 vecLen f R = .ok o ∧ o.isTable = R.isTable ∧ o.src.keys = R.src.keys ∧ GoodDict o.src ∧
      ∀ k v, R.src.at k = some v → ∃ w, f v = .ok w ∧ o.src.at k = some w := by
  obtain ⟨d, e, g1, g2, g3⟩ := mapKeys_ok .err (fun _ v => f v) R.src R.src.keys Dict.empty hR.nodup (by
    intro k hk
    obtain ⟨v, hv⟩ := hR.keys_some hk
    obtain ⟨w, hw⟩ := h k v hv
    exact ⟨v, w, hv, hw⟩)
  refine ⟨asKind vecLen R.isTable d, ?_, (asKind_src ..).2, ?_, ?_, ?_⟩
  · simp only [table1, e, bind, Except.bind, pure, Except.pure]
  · rw [(asKind_src ..).1, g1]; rfl
  · rw [(asKind_src ..).1]
    exact goodDict_of (by rw [g1]; rfl) hR.nodup (fun k hk => by rw [g2 k hk]; rfl) (fun k hk => by
      obtain ⟨_, w, _, _, hw⟩ := g3 k hk
      exact ⟨w, hw⟩)
  · intro k v hv
    rw [(asKind_src ..).1]
    obtain ⟨v', w, h1, h2, h3⟩ := g3 k ((hR.mem k).2 (by rw [hv]; rfl))
    rw [hv] at h1
    cases h1
    exact ⟨w, h2, h3⟩

/-- **C67.** It fails if the function fails for one of the values. -/
theorem C67_monadic_fails (vecLen : V → Option Nat) (f : V → Res V) (R : DObj K V) (hR : GoodDict R.src)
    (h : ∃ k v e, R.src.at k = some v ∧ f v = .error e) : ∃ e, table1 vecLen f R = .error e := by
  obtain ⟨k, v, e, h1, h2⟩ := h
  obtain ⟨e', he⟩ := mapKeys_fail .err (fun _ v => f v) R.src R.src.keys Dict.empty ⟨k, (hR.mem k).2 (by rw [h1]; rfl), v, e, h1, h2⟩
  exact ⟨e', by simp only [table1, he, bind, Except.bind]⟩

/-- **C67.** A function of a value (on the left or on the right) and a dictionary or table is applied to the value and each of the values
in the object. -/
theorem C67_value (vecLen : V → Option Nat) (f : V → V → Res V) (left : Bool) (x : V) (R : DObj K V) (hR : GoodDict R.src)
    (h : ∀ k v, R.src.at k = some v → ∃ w, (if left then f x v else f v x) = .ok w) :
    ∃ o, tableAny vecLen f left x R = .ok o ∧ o.isTable = R.isTable ∧ o.src.keys = R.src.keys ∧ GoodDict o.src ∧
      ∀ k v, R.src.at k = some v → ∃ w, (if left then f x v else f v x) = .ok w ∧ o.src.at k = some w := by
  obtain ⟨d, e, g1, g2, g3⟩ := mapKeys_ok .panic (fun _ v => if left then f x v else f v x) R.src R.src.keys Dict.empty hR.nodup (by
    intro k hk
    obtain ⟨v, hv⟩ := hR.keys_some hk
    obtain ⟨w, hw⟩ := h k v hv
    exact ⟨v, w, hv, hw⟩)
  refine ⟨asKind vecLen R.isTable d, ?_, (asKind_src ..).2, ?_, ?_, ?_⟩
  · simp only [tableAny, e, bind, Except.bind, pure, Except.pure]
  · rw [(asKind_src ..).1, g1]; rfl
  · rw [(asKind_src ..).1]
    exact goodDict_of (by rw [g1]; rfl) hR.nodup (fun k hk => by rw [g2 k hk]; rfl) (fun k hk => by
      obtain ⟨_, w, _, _, hw⟩ := g3 k hk
      exact ⟨w, hw⟩)
  · intro k v hv
    rw [(asKind_src ..).1]
    obtain ⟨v', w, h1, h2, h3⟩ := g3 k ((hR.mem k).2 (by rw [hv]; rfl))
    rw [hv] at h1
    cases h1
    exact ⟨w, h2, h3⟩

/-- the keys of two objects: those on the left, then those that are only on the right -/
def unionKeys (l r : List K) : List K := l ++ r.filter (fun k => k ∉ l)

theorem unionKeys_nodup {l r : List K} (hl : l.Nodup) (hr : r.Nodup) : (unionKeys l r).Nodup := by
  unfold unionKeys
  rw [List.nodup_append]
  refine ⟨hl, hr.filter _, ?_⟩
  intro a ha b hb hab
  subst hab
  simp only [List.mem_filter, decide_eq_true_eq] at hb
  exact hb.2 ha

theorem mem_unionKeys (l r : List K) (k : K) : k ∈ unionKeys l r ↔ k ∈ l ∨ k ∈ r := by
  unfold unionKeys
  simp only [List.mem_append, List.mem_filter, decide_eq_true_eq]
  constructor
  · rintro (h | h)
    · exact .inl h
    · exact .inr h.1
  · rintro (h | h)
    · exact .inl h
    · by_cases hl : k ∈ l
      · exact .inl hl
      · exact .inr ⟨h, hl⟩

/-- the value of the function for a key: a value that is missing on one side counts as the zero of the other one -/
inductive PairValue (zero : V → V) (f : V → V → Res V) : Option V → Option V → Res V → Prop
  | both (a b) : PairValue zero f (some a) (some b) (f a b)
  | left (a) : PairValue zero f (some a) none (f a (zero a))
  | right (b) : PairValue zero f none (some b) (f (zero b) b)

theorem bothRight_ok (zero : V → V) (f : V → V → Res V) (l r : Dict K V) (ks : List K) (d : Dict K V) (hn : ks.Nodup)
    (hl : ∀ k, k ∈ l.keys ↔ (l.at k).isSome = true)
    (h : ∀ k ∈ ks, k ∉ l.keys → ∃ v w, r.at k = some v ∧ f (zero v) v = .ok w) :
    ∃ d', bothRight zero f l r ks d = .ok d' ∧ d'.keys = d.keys ++ ks.filter (fun k => k ∉ l.keys) ∧
      (∀ k, (k ∉ ks ∨ k ∈ l.keys) → d'.at k = d.at k) ∧
      ∀ k ∈ ks, k ∉ l.keys → ∃ v w, r.at k = some v ∧ f (zero v) v = .ok w ∧ d'.at k = some w := by
  induction ks generalizing d with
  | nil => exact ⟨d, rfl, by simp, fun _ _ => rfl, by simp⟩
  | cons k ks ih =>
    rw [List.nodup_cons] at hn
    by_cases hkl : k ∈ l.keys
    · obtain ⟨lv, hlv⟩ := Option.isSome_iff_exists.1 ((hl k).1 hkl)
      obtain ⟨d', e, g1, g2, g3⟩ := ih d hn.2 (fun k' hk' => h k' (by simp [hk']))
      refine ⟨d', ?_, ?_, ?_, ?_⟩
      · simp only [bothRight, hlv]; exact e
      · rw [g1]; simp [hkl]
      · intro x hx
        apply g2
        rcases hx with hx | hx
        · exact .inl (fun h => hx (by simp [h]))
        · exact .inr hx
      · intro x hx hxl
        rcases List.mem_cons.1 hx with rfl | hx
        · exact absurd hkl hxl
        · exact g3 x hx hxl
    · have hnone : l.at k = none := by
        cases hq : l.at k with
        | none => rfl
        | some v => exact absurd ((hl k).2 (by rw [hq]; rfl)) hkl
      obtain ⟨v, w, h1, h2⟩ := h k (by simp) hkl
      have hat : ∀ x, (⟨d.keys ++ [k], mapSet d.map k w⟩ : Dict K V).at x = if k = x then some w else d.at x := fun x => mapGet_set _ _ _ _
      obtain ⟨d', e, g1, g2, g3⟩ := ih ⟨d.keys ++ [k], mapSet d.map k w⟩ hn.2 (fun k' hk' => h k' (by simp [hk']))
      refine ⟨d', ?_, ?_, ?_, ?_⟩
      · simp only [bothRight, hnone, h1, h2, bind, Except.bind]; exact e
      · rw [g1]; simp [hkl]
      · intro x hx
        have hne : k ≠ x := by
          rintro rfl
          rcases hx with hx | hx
          · simp at hx
          · exact hkl hx
        rw [g2 x (by
          rcases hx with hx | hx
          · exact .inl (fun h => hx (by simp [h]))
          · exact .inr hx), hat, if_neg hne]
      · intro x hx hxl
        rcases List.mem_cons.1 hx with rfl | hx
        · exact ⟨v, w, h1, h2, by rw [g2 x (.inl hn.1), hat, if_pos rfl]⟩
        · exact g3 x hx hxl

theorem at_none {d : Dict K V} (hd : GoodDict d) {k : K} (hk : k ∉ d.keys) : d.at k = none := by
  cases hq : d.at k with
  | none => rfl
  | some v => exact absurd ((hd.mem k).2 (by rw [hq]; rfl)) hk

/-- **C67.** A function of two dictionaries or two tables: the result has the keys of the left one, followed by those that are only in the right
one, and the function is applied to the two values of each key; a missing value counts as the zero of the other one. -/
theorem C67_dyadic (vecLen : V → Option Nat) (zero : V → V) (f : V → V → Res V) (L R : DObj K V) (hL : GoodDict L.src) (hR : GoodDict R.src)
    (hk : L.isTable = R.isTable) (h : ∀ k x, PairValue zero f (L.src.at k) (R.src.at k) x → ∃ w, x = .ok w) :
    ∃ o, tableBoth vecLen zero f L R = .ok o ∧ o.isTable = L.isTable ∧ o.src.keys = unionKeys L.src.keys R.src.keys ∧ GoodDict o.src ∧
      ∀ k, k ∈ L.src.keys ∨ k ∈ R.src.keys → ∃ w, PairValue zero f (L.src.at k) (R.src.at k) (.ok w) ∧ o.src.at k = some w := by
  have hleft : ∀ k lv, L.src.at k = some lv → PairValue zero f (L.src.at k) (R.src.at k) (f lv (orZero zero lv (R.src.at k))) := by
    intro k lv hlv
    rw [hlv]
    cases R.src.at k with
    | none => exact .left lv
    | some rv => exact .both lv rv
  have hright : ∀ k rv, k ∉ L.src.keys → R.src.at k = some rv → PairValue zero f (L.src.at k) (R.src.at k) (f (zero rv) rv) := by
    intro k rv hkl hrv
    rw [hrv, at_none hL hkl]
    exact .right rv
  obtain ⟨d, e, g1, g2, g3⟩ := mapKeys_ok .panic (fun k lv => f lv (orZero zero lv (R.src.at k))) L.src L.src.keys Dict.empty hL.nodup (by
    intro k hk
    obtain ⟨v, hv⟩ := hL.keys_some hk
    obtain ⟨w, hw⟩ := h k _ (hleft k v hv)
    exact ⟨v, w, hv, hw⟩)
  obtain ⟨d', e', q1, q2, q3⟩ := bothRight_ok zero f L.src R.src R.src.keys d hR.nodup hL.mem (by
    intro k hk hkl
    obtain ⟨v, hv⟩ := hR.keys_some hk
    obtain ⟨w, hw⟩ := h k _ (hright k v hkl hv)
    exact ⟨v, w, hv, hw⟩)
  have hval : ∀ k, k ∈ L.src.keys ∨ k ∈ R.src.keys → ∃ w, PairValue zero f (L.src.at k) (R.src.at k) (.ok w) ∧ d'.at k = some w := by
    intro k hk
    by_cases hkl : k ∈ L.src.keys
    · obtain ⟨v, w, h1, h2, h3⟩ := g3 k hkl
      refine ⟨w, ?_, by rw [q2 k (.inr hkl), h3]⟩
      have := hleft k v h1
      rwa [h2] at this
    · obtain ⟨v, w, h1, h2, h3⟩ := q3 k (hk.resolve_left hkl) hkl
      refine ⟨w, ?_, h3⟩
      have := hright k v hkl h1
      rwa [h2] at this
  have hkeys : d'.keys = unionKeys L.src.keys R.src.keys := by rw [q1, g1]; rfl
  refine ⟨asKind vecLen L.isTable d', ?_, (asKind_src ..).2, ?_, ?_, ?_⟩
  · unfold tableBoth
    rw [if_neg (by rw [hk]; cases R.isTable <;> simp)]
    simp only [e, e', bind, Except.bind, pure, Except.pure]
  · rw [(asKind_src ..).1, hkeys]
  · rw [(asKind_src ..).1]
    refine goodDict_of hkeys (unionKeys_nodup hL.nodup hR.nodup) ?_ ?_
    · intro k hk
      rw [mem_unionKeys, not_or] at hk
      rw [q2 k (.inl hk.2), g2 k hk.1]
      rfl
    · intro k hk
      obtain ⟨w, _, hw⟩ := hval k ((mem_unionKeys _ _ _).1 hk)
      exact ⟨w, hw⟩
  · rw [(asKind_src ..).1]
    exact hval

theorem bothRight_fail (zero : V → V) (f : V → V → Res V) (l r : Dict K V) (ks : List K) (d : Dict K V)
    (h : ∃ k ∈ ks, l.at k = none ∧ ∃ v e, r.at k = some v ∧ f (zero v) v = .error e) : ∃ e, bothRight zero f l r ks d = .error e := by
  induction ks generalizing d with
  | nil => obtain ⟨k, hk, _⟩ := h; cases hk
  | cons k ks ih =>
    obtain ⟨k', hk', hl, v, e, h1, h2⟩ := h
    simp only [bothRight]
    rcases List.mem_cons.1 hk' with rfl | hk'
    · rw [hl]
      simp only [h1, h2, bind, Except.bind]
      exact ⟨_, rfl⟩
    · cases l.at k with
      | some _ => exact ih _ ⟨k', hk', hl, v, e, h1, h2⟩
      | none =>
        cases r.at k with
        | none => exact ⟨_, rfl⟩
        | some rv =>
          simp only [bind, Except.bind]
          cases f (zero rv) rv with
          | error e => exact ⟨_, rfl⟩
          | ok w => exact ih _ ⟨k', hk', hl, v, e, h1, h2⟩

/-- **C67.** It fails if the function fails for one of the keys. -/
theorem C67_dyadic_fails (vecLen : V → Option Nat) (zero : V → V) (f : V → V → Res V) (L R : DObj K V) (hL : GoodDict L.src) (hR : GoodDict R.src)
    (h : ∃ k e, PairValue zero f (L.src.at k) (R.src.at k) (.error e)) : ∃ e, tableBoth vecLen zero f L R = .error e := by
  obtain ⟨k, e, h⟩ := h
  unfold tableBoth
  by_cases hc : L.isTable = true ∧ R.isTable = false
  · rw [if_pos hc]; exact ⟨_, rfl⟩
  · rw [if_neg hc]
    cases hl : L.src.at k with
    | some lv =>
      obtain ⟨e', he'⟩ := mapKeys_fail .panic (fun k lv => f lv (orZero zero lv (R.src.at k))) L.src L.src.keys Dict.empty
        ⟨k, (hL.mem k).2 (by rw [hl]; rfl), lv, e, hl, by
          rw [hl] at h
          generalize hx : (Except.error e : Res V) = x at h
          cases hr : R.src.at k with
          | none => rw [hr] at h; cases h; rfl
          | some rv => rw [hr] at h; cases h; rfl⟩
      exact ⟨e', by simp only [he', bind, Except.bind]⟩
    | none =>
      cases hr : R.src.at k with
      | none => rw [hl, hr] at h; generalize (Except.error e : Res V) = x at h; cases h
      | some rv =>
        have hf : f (zero rv) rv = .error e := by
          rw [hl, hr] at h
          generalize hx : (Except.error e : Res V) = x at h
          cases h
          rfl
        cases hm : mapKeys .panic (fun k lv => f lv (orZero zero lv (R.src.at k))) L.src L.src.keys Dict.empty with
        | error e' => exact ⟨e', rfl⟩
        | ok d =>
          obtain ⟨e', he'⟩ := bothRight_fail zero f L.src R.src R.src.keys d ⟨k, (hR.mem k).2 (by rw [hr]; rfl), hl, rv, e, hr, hf⟩
          exact ⟨e', by simp only [he', bind, Except.bind]⟩

/-- **C67.** A table on the left and a dictionary on the right cannot be mixed. -/
theorem C67_mixed (vecLen : V → Option Nat) (zero : V → V) (f : V → V → Res V) (t : Tab K V) (d : Dict K V) :
    tableBoth vecLen zero f (.tab t) (.dict d) = .error .err := rfl

/-- the object is a proper table with `n` rows -/
def TableOf (vecLen : V → Option Nat) (n : Nat) (o : DObj K V) : Prop := ∃ d, o = .tab ⟨d, n⟩ ∧ GoodObj vecLen o

theorem asKind_table (vecLen : V → Option Nat) (o : DObj K V) (d : Dict K V) (ho : o = asKind vecLen true d) (hd : GoodDict d) (hne : d.keys ≠ [])
    (n : Nat) (h : ∀ k v, d.at k = some v → vecLen v = some n) : TableOf vecLen n o := by
  have e : o = .tab ⟨d, n⟩ := by
    rw [ho]
    show DObj.tab (dict2table vecLen d) = _
    rw [dict2table_rows vecLen d hd n hne h]
  exact ⟨d, e, by rw [e]; exact ⟨hd, h⟩⟩

/-- every table that an operation returns is built from its columns -/
theorem asKind_of {vecLen : V → Option Nat} {o : DObj K V} (b : Bool) (d : Dict K V) (h : o = asKind vecLen b d) (ht : o.isTable = true) :
    o = asKind vecLen true o.src := by
  cases b with
  | true => rw [h, (asKind_src ..).1]
  | false => rw [h] at ht; cases ht

/-- **C67.** An elementary function that keeps the length of vectors gives for a proper table with at least one column a proper table with the
same number of rows. -/
theorem C67_table_monadic (vecLen : V → Option Nat) (f : V → Res V) (hf : ∀ v w n, f v = .ok w → vecLen v = some n → vecLen w = some n)
    (t : Tab K V) (ht : GoodObj vecLen (.tab t)) (hne : t.dict.keys ≠ []) (o : DObj K V) (h : table1 vecLen f (.tab t) = .ok o) :
    TableOf vecLen t.rows o := by
  have hall : ∀ k v, t.dict.at k = some v → ∃ w, f v = .ok w := by
    intro k v hv
    by_contra hc
    have : ∃ e, f v = .error e := by
      cases hq : f v with
      | error e => exact ⟨e, rfl⟩
      | ok w => exact absurd ⟨w, hq⟩ hc
    obtain ⟨e, he⟩ := this
    obtain ⟨e', he'⟩ := C67_monadic_fails vecLen f (.tab t) ht.1 ⟨k, v, e, hv, he⟩
    rw [h] at he'
    cases he'
  obtain ⟨o', e, h1, h2, h3, h4⟩ := C67_monadic vecLen f (.tab t) ht.1 hall
  rw [h] at e
  cases e
  have hb : ∃ d, o = asKind vecLen true d := by
    unfold table1 at h
    cases hm : mapKeys .err (fun _ v => f v) (DObj.tab t).src (DObj.tab t).src.keys Dict.empty with
    | error e => rw [hm] at h; cases h
    | ok d => rw [hm] at h; cases h; exact ⟨d, rfl⟩
  obtain ⟨d, hd⟩ := hb
  have hs : o.src = d := by rw [hd]; exact (asKind_src ..).1
  refine asKind_table vecLen o d hd (by rw [← hs]; exact h3) (by rw [← hs, h2]; exact hne) t.rows ?_
  intro k w hw
  rw [← hs] at hw
  have hk : k ∈ t.dict.keys := by
    have := (h3.mem k).2 (by rw [hw]; rfl)
    rwa [h2] at this
  obtain ⟨v, hv⟩ := ht.1.keys_some hk
  obtain ⟨w', g1, g2⟩ := h4 k v hv
  rw [hw] at g2
  cases g2
  exact hf v w _ g1 (ht.2 k v hv)

/-- **C67.** A function of two proper tables with the same number of rows and at least one column gives a proper table with this number of rows, if
the function keeps the length of two vectors of the same length, and of a vector and a zero. -/
theorem C67_table_dyadic (vecLen : V → Option Nat) (zero : V → V) (f : V → V → Res V) (n : Nat) (l r : Dict K V)
    (hl : GoodObj vecLen (.tab ⟨l, n⟩)) (hr : GoodObj vecLen (.tab ⟨r, n⟩)) (hne : l.keys ≠ [] ∨ r.keys ≠ [])
    (hf : ∀ k x w, PairValue zero f (l.at k) (r.at k) x → x = .ok w → vecLen w = some n)
    (h : ∀ k x, PairValue zero f (l.at k) (r.at k) x → ∃ w, x = .ok w) :
    ∃ o, tableBoth vecLen zero f (.tab ⟨l, n⟩) (.tab ⟨r, n⟩) = .ok o ∧ TableOf vecLen n o := by
  obtain ⟨o, e, h1, h2, h3, h4⟩ := C67_dyadic vecLen zero f (.tab ⟨l, n⟩) (.tab ⟨r, n⟩) hl.1 hr.1 rfl h
  refine ⟨o, e, ?_⟩
  have hb : ∃ d, o = asKind vecLen true d := by
    unfold tableBoth at e
    rw [if_neg (by simp [DObj.isTable])] at e
    cases hm : mapKeys .panic (fun k lv => f lv (orZero zero lv ((DObj.tab ⟨r, n⟩ : DObj K V).src.at k))) (DObj.tab ⟨l, n⟩ : DObj K V).src (DObj.tab ⟨l, n⟩ : DObj K V).src.keys Dict.empty with
    | error e' => rw [hm] at e; cases e
    | ok d =>
      rw [hm] at e
      simp only [bind, Except.bind] at e
      cases hq : bothRight zero f (DObj.tab ⟨l, n⟩ : DObj K V).src (DObj.tab ⟨r, n⟩ : DObj K V).src (DObj.tab ⟨r, n⟩ : DObj K V).src.keys d with
      | error e' => rw [hq] at e; cases e
      | ok d' => rw [hq] at e; cases e; exact ⟨d', rfl⟩
  obtain ⟨d, hd⟩ := hb
  have hs : o.src = d := by rw [hd]; exact (asKind_src ..).1
  refine asKind_table vecLen o d hd (by rw [← hs]; exact h3) ?_ n ?_
  · rw [← hs, h2]
    intro hc
    have : ∀ k, k ∉ unionKeys l.keys r.keys := fun k hk => by
      have : k ∈ unionKeys (DObj.tab ⟨l, n⟩ : DObj K V).src.keys (DObj.tab ⟨r, n⟩ : DObj K V).src.keys := hk
      rw [hc] at this; cases this
    rcases hne with h | h
    · obtain ⟨k, hk⟩ := List.exists_mem_of_ne_nil _ h
      exact this k ((mem_unionKeys _ _ _).2 (.inl hk))
    · obtain ⟨k, hk⟩ := List.exists_mem_of_ne_nil _ h
      exact this k ((mem_unionKeys _ _ _).2 (.inr hk))
  · intro k w hw
    rw [← hs] at hw
    have hk := (h3.mem k).2 (by rw [hw]; rfl)
    rw [h2, mem_unionKeys] at hk
    obtain ⟨w', g1, g2⟩ := h4 k hk
    rw [hw] at g2
    cases g2
    exact hf k _ w g1 rfl

/-- **C67, counterexample.** Two tables with different numbers of rows and without a common column are not rejected: the result has a column
that is not as long as the number of rows. -/
theorem C67_different_rows (vecLen : V → Option Nat) (zero : V → V) (f : V → V → Res V) (a b : K) (hab : a ≠ b) (u v u' v' : V) (n p : Nat) (hnp : n ≠ p)
    (hu : vecLen u = some n) (hv : vecLen v = some p) (hfu : f u (zero u) = .ok u') (hfv : f (zero v) v = .ok v')
    (hu' : vecLen u' = some n) (hv' : vecLen v' = some p) :
    GoodObj vecLen (.tab ⟨⟨[a], [(a, u)]⟩, n⟩ : DObj K V) ∧ GoodObj vecLen (.tab ⟨⟨[b], [(b, v)]⟩, p⟩ : DObj K V) ∧
    ∃ o, tableBoth vecLen zero f (.tab ⟨⟨[a], [(a, u)]⟩, n⟩) (.tab ⟨⟨[b], [(b, v)]⟩, p⟩) = .ok o ∧ ¬ GoodObj vecLen o := by
  have good : ∀ (k : K) (x : V) (q : Nat), vecLen x = some q → GoodObj vecLen (.tab ⟨⟨[k], [(k, x)]⟩, q⟩ : DObj K V) := by
    intro k x q hx
    refine ⟨⟨by simp, fun y => ?_⟩, fun y w hw => ?_⟩
    · simp only [Dict.at, mapGet, List.mem_singleton]
      by_cases h : k = y
      · simp [h]
      · simp [h, Ne.symm h]
    · simp only [Dict.at, mapGet] at hw
      split at hw
      · cases hw; exact hx
      · cases hw
  have gl := good a u n hu
  have gr := good b v p hv
  have la : ∀ k : K, (⟨[a], [(a, u)]⟩ : Dict K V).at k = if a = k then some u else none := fun k => rfl
  have rb : ∀ k : K, (⟨[b], [(b, v)]⟩ : Dict K V).at k = if b = k then some v else none := fun k => rfl
  have pv : ∀ k x, PairValue zero f ((⟨[a], [(a, u)]⟩ : Dict K V).at k) ((⟨[b], [(b, v)]⟩ : Dict K V).at k) x → (k = a ∧ x = .ok u') ∨ (k = b ∧ x = .ok v') := by
    intro k x hx
    rw [la, rb] at hx
    by_cases h1 : a = k
    · rw [if_pos h1, if_neg (fun h2 => hab (h1.trans h2.symm))] at hx
      cases hx
      exact .inl ⟨h1.symm, hfu⟩
    · rw [if_neg h1] at hx
      by_cases h2 : b = k
      · rw [if_pos h2] at hx
        cases hx
        exact .inr ⟨h2.symm, hfv⟩
      · rw [if_neg h2] at hx
        cases hx
  obtain ⟨o, e, h1, _, _, h4⟩ := C67_dyadic vecLen zero f (.tab ⟨⟨[a], [(a, u)]⟩, n⟩) (.tab ⟨⟨[b], [(b, v)]⟩, p⟩) gl.1 gr.1 rfl (by
    intro k x hx
    rcases pv k x hx with ⟨_, h⟩ | ⟨_, h⟩
    · exact ⟨_, h⟩
    · exact ⟨_, h⟩)
  refine ⟨gl, gr, o, e, ?_⟩
  intro hg
  cases o with
  | dict d => cases h1
  | tab t =>
    obtain ⟨wa, p1, q1⟩ := h4 a (.inl (by simp [DObj.src]))
    obtain ⟨wb, p2, q2⟩ := h4 b (.inr (by simp [DObj.src]))
    rcases pv a _ p1 with ⟨_, h⟩ | ⟨h, _⟩
    · cases h
      rcases pv b _ p2 with ⟨h, _⟩ | ⟨_, h⟩
      · exact hab h.symm
      · cases h
        have r1 := hg.2 a _ q1
        have r2 := hg.2 b _ q2
        rw [hu'] at r1
        rw [hv'] at r2
        cases r1
        cases r2
        exact hnp rfl
    · exact hab h


/-! ### C68: catenation -/

theorem mergeRight_ok (r : Dict K V) (ks : List K) (d : Dict K V) (hn : ks.Nodup) (hd : GoodDict d)
    (h : ∀ k ∈ ks, (r.at k).isSome = true) :
    ∃ d', mergeRight r ks d = .ok d' ∧ d'.keys = d.keys ++ ks.filter (fun k => k ∉ d.keys) ∧
      (∀ k, k ∉ ks → d'.at k = d.at k) ∧ ∀ k ∈ ks, d'.at k = r.at k := by
  induction ks generalizing d with
  | nil => exact ⟨d, rfl, by simp, fun _ _ => rfl, by simp⟩
  | cons k ks ih =>
    rw [List.nodup_cons] at hn
    obtain ⟨v, hv⟩ := Option.isSome_iff_exists.1 (h k (by simp))
    have hat : ∀ x (ks : List K), (⟨ks, mapSet d.map k v⟩ : Dict K V).at x = if k = x then some v else d.at x := fun x _ => mapGet_set _ _ _ _
    have hkk : (if (d.at k).isSome then d.keys else d.keys ++ [k]) = if k ∈ d.keys then d.keys else d.keys ++ [k] := by
      by_cases hk : k ∈ d.keys
      · rw [if_pos ((hd.mem k).1 hk), if_pos hk]
      · rw [if_neg (fun hc => hk ((hd.mem k).2 hc)), if_neg hk]
    have hg : GoodDict (⟨if k ∈ d.keys then d.keys else d.keys ++ [k], mapSet d.map k v⟩ : Dict K V) := by
      refine ⟨?_, fun x => ?_⟩
      · show (if k ∈ d.keys then d.keys else d.keys ++ [k]).Nodup
        by_cases hk : k ∈ d.keys
        · rw [if_pos hk]; exact hd.nodup
        · rw [if_neg hk, List.nodup_append]
          refine ⟨hd.nodup, by simp, ?_⟩
          intro a ha b hb hab
          rw [List.mem_singleton] at hb
          subst hab hb
          exact hk ha
      · rw [hat]
        show x ∈ (if k ∈ d.keys then d.keys else d.keys ++ [k]) ↔ _
        by_cases hk : k ∈ d.keys
        · rw [if_pos hk]
          by_cases hx : k = x
          · subst hx; simp [hk]
          · rw [if_neg hx]; exact hd.mem x
        · rw [if_neg hk, List.mem_append, List.mem_singleton]
          by_cases hx : k = x
          · subst hx; simp
          · rw [if_neg hx, ← hd.mem x]
            exact ⟨fun h => h.resolve_right (Ne.symm hx), .inl⟩
    obtain ⟨d', e, g1, g2, g3⟩ := ih _ hn.2 hg (fun x hx => h x (by simp [hx]))
    refine ⟨d', ?_, ?_, ?_, ?_⟩
    · simp only [mergeRight, hv, hkk]
      exact e
    · rw [g1]
      by_cases hk : k ∈ d.keys
      · simp [hk]
      · simp only [hk, if_false, List.filter_cons, not_false_eq_true, decide_true, if_true, List.append_assoc, List.singleton_append]
        congr 2
        apply List.filter_congr
        intro x hx
        have : x ≠ k := fun h => hn.1 (by rw [← h]; exact hx)
        simp [this]
    · intro x hx
      simp only [List.mem_cons, not_or] at hx
      rw [g2 x hx.2, hat, if_neg (Ne.symm hx.1)]
    · intro x hx
      rcases List.mem_cons.1 hx with rfl | hx
      · rw [g2 x hn.1, hat, if_pos rfl, hv]
      · exact g3 x hx

/-- the entries of two dictionaries, where those on the right replace those on the left -/
def Merged (l r d : Dict K V) : Prop :=
  d.keys = unionKeys l.keys r.keys ∧ ∀ k, d.at k = if k ∈ r.keys then r.at k else l.at k

theorem mergeDicts_ok (l r : Dict K V) (hl : GoodDict l) (hr : GoodDict r) : ∃ d, mergeDicts l r = .ok d ∧ Merged l r d ∧ GoodDict d := by
  obtain ⟨d, e, g1, g2, g3⟩ := mapKeys_ok .panic (fun _ v => .ok v) l l.keys Dict.empty hl.nodup (by
    intro k hk
    obtain ⟨v, hv⟩ := hl.keys_some hk
    exact ⟨v, v, hv, rfl⟩)
  have hk : d.keys = l.keys := by rw [g1]; rfl
  have hd : ∀ k, d.at k = l.at k := by
    intro k
    by_cases h : k ∈ l.keys
    · obtain ⟨v, w, h1, h2, h3⟩ := g3 k h
      cases h2
      rw [h1, h3]
    · rw [g2 k h, at_none hl h]
      rfl
  have hg : GoodDict d := ⟨by rw [hk]; exact hl.nodup, fun k => by rw [hk, hd]; exact hl.mem k⟩
  obtain ⟨d', e', q1, q2, q3⟩ := mergeRight_ok r r.keys d hr.nodup hg (fun k hk => (hr.mem k).1 hk)
  have hkeys : d'.keys = unionKeys l.keys r.keys := by rw [q1, hk]; rfl
  have hat : ∀ k, d'.at k = if k ∈ r.keys then r.at k else l.at k := by
    intro k
    by_cases h : k ∈ r.keys
    · rw [if_pos h, q3 k h]
    · rw [if_neg h, q2 k h, hd]
  refine ⟨d', by simp only [mergeDicts, e, bind, Except.bind, e'], ⟨hkeys, hat⟩, ?_⟩
  refine goodDict_of hkeys (unionKeys_nodup hl.nodup hr.nodup) ?_ ?_
  · intro k hk
    rw [mem_unionKeys, not_or] at hk
    rw [hat, if_neg hk.2, at_none hl hk.1]
  · intro k hk
    rw [mem_unionKeys] at hk
    rw [hat]
    by_cases h : k ∈ r.keys
    · rw [if_pos h]; exact hr.keys_some h
    · rw [if_neg h]; exact hl.keys_some (hk.resolve_right h)

/-- the value for a key when two dictionaries are joined: the values on both sides are catenated -/
inductive JoinValue (cat : V → V → Res V) : Option V → Option V → Res V → Prop
  | both (a b) : JoinValue cat (some a) (some b) (cat a b)
  | left (a) : JoinValue cat (some a) none (.ok a)
  | right (b) : JoinValue cat none (some b) (.ok b)

theorem joinLeft_ok (cat : V → V → Res V) (b : Bool) (l r : Dict K V) (ks : List K) (d : Dict K V) (hn : ks.Nodup)
    (h : ∀ k ∈ ks, ∃ v w, l.at k = some v ∧ JoinValue cat (some v) (r.at k) (.ok w) ∧ (b = true → (r.at k).isSome = true)) :
    ∃ d', joinLeft cat b l r ks d = .ok d' ∧ d'.keys = d.keys ++ ks ∧ (∀ k, k ∉ ks → d'.at k = d.at k) ∧
      ∀ k ∈ ks, ∃ w, JoinValue cat (l.at k) (r.at k) (.ok w) ∧ d'.at k = some w := by
  induction ks generalizing d with
  | nil => exact ⟨d, rfl, by simp, fun _ _ => rfl, by simp⟩
  | cons k ks ih =>
    rw [List.nodup_cons] at hn
    obtain ⟨v, w, h1, h2, h3⟩ := h k (by simp)
    obtain ⟨d', e, g1, g2, g3⟩ := ih ⟨d.keys ++ [k], mapSet d.map k w⟩ hn.2 (fun k' hk' => h k' (by simp [hk']))
    have hat : ∀ x, (⟨d.keys ++ [k], mapSet d.map k w⟩ : Dict K V).at x = if k = x then some w else d.at x := fun x => mapGet_set _ _ _ _
    refine ⟨d', ?_, by rw [g1]; simp, ?_, ?_⟩
    · simp only [joinLeft, h1]
      cases hr : r.at k with
      | none =>
        rw [hr] at h2 h3
        have hb : b = false := by
          cases b with
          | false => rfl
          | true => exact absurd (h3 rfl) (by simp)
        generalize hx : (Except.ok w : Res V) = x at h2
        cases h2
        cases hx
        simp only [hb, Bool.false_eq_true, if_false]
        rw [← hb]
        exact e
      | some rv =>
        rw [hr] at h2
        generalize hx : (Except.ok w : Res V) = x at h2
        cases h2
        simp only [← hx, bind, Except.bind]
        exact e
    · intro x hx
      simp only [List.mem_cons, not_or] at hx
      rw [g2 x hx.2, hat, if_neg (Ne.symm hx.1)]
    · intro x hx
      rcases List.mem_cons.1 hx with rfl | hx
      · exact ⟨w, by rw [h1]; exact h2, by rw [g2 x hn.1, hat, if_pos rfl]⟩
      · exact g3 x hx

theorem joinRight_ok (b : Bool) (r : Dict K V) (ks : List K) (d : Dict K V) (hn : ks.Nodup) (hd : ∀ k, k ∈ d.keys ↔ (d.at k).isSome = true)
    (h : ∀ k ∈ ks, (r.at k).isSome = true ∧ (b = true → k ∈ d.keys)) :
    ∃ d', joinRight b r ks d = .ok d' ∧ d'.keys = d.keys ++ ks.filter (fun k => k ∉ d.keys) ∧
      (∀ k, k ∉ ks ∨ k ∈ d.keys → d'.at k = d.at k) ∧ ∀ k ∈ ks, k ∉ d.keys → d'.at k = r.at k := by
  induction ks generalizing d with
  | nil => exact ⟨d, rfl, by simp, fun _ _ => rfl, by simp⟩
  | cons k ks ih =>
    rw [List.nodup_cons] at hn
    by_cases hk : k ∈ d.keys
    · obtain ⟨v, hv⟩ := Option.isSome_iff_exists.1 ((hd k).1 hk)
      obtain ⟨d', e, g1, g2, g3⟩ := ih d hn.2 hd (fun x hx => h x (by simp [hx]))
      refine ⟨d', ?_, ?_, ?_, ?_⟩
      · simp only [joinRight, hv]; exact e
      · rw [g1]; simp [hk]
      · intro x hx
        apply g2
        rcases hx with hx | hx
        · exact .inl (fun h => hx (by simp [h]))
        · exact .inr hx
      · intro x hx hxd
        rcases List.mem_cons.1 hx with rfl | hx
        · exact absurd hk hxd
        · exact g3 x hx hxd
    · have hnone : d.at k = none := by
        cases hq : d.at k with
        | none => rfl
        | some v => exact absurd ((hd k).2 (by rw [hq]; rfl)) hk
      obtain ⟨hr, hb⟩ := h k (by simp)
      have hb' : b = false := by
        cases b with
        | false => rfl
        | true => exact absurd (hb rfl) hk
      subst hb'
      obtain ⟨v, hv⟩ := Option.isSome_iff_exists.1 hr
      have hat : ∀ x, (⟨d.keys ++ [k], mapSet d.map k v⟩ : Dict K V).at x = if k = x then some v else d.at x := fun x => mapGet_set _ _ _ _
      obtain ⟨d', e, g1, g2, g3⟩ := ih ⟨d.keys ++ [k], mapSet d.map k v⟩ hn.2 (by
        intro x
        rw [hat]
        show x ∈ d.keys ++ [k] ↔ _
        rw [List.mem_append, List.mem_singleton]
        by_cases hx : k = x
        · subst hx; simp
        · rw [if_neg hx, ← hd x]
          exact ⟨fun h => h.resolve_right (Ne.symm hx), .inl⟩) (fun x hx => ⟨(h x (by simp [hx])).1, by simp⟩)
      refine ⟨d', ?_, ?_, ?_, ?_⟩
      · simp only [joinRight, hnone, hv, Bool.false_eq_true, if_false]; exact e
      · rw [g1]
        simp only [hk, List.filter_cons, not_false_eq_true, decide_true, if_true, List.append_assoc, List.singleton_append]
        congr 2
        apply List.filter_congr
        intro x hx
        have : x ≠ k := fun h => hn.1 (by rw [← h]; exact hx)
        simp [this]
      · intro x hx
        have hne : k ≠ x := by
          rintro rfl
          rcases hx with hx | hx
          · simp at hx
          · exact hk hx
        rw [g2 x (by
          rcases hx with hx | hx
          · exact .inl (fun h => hx (by simp [h]))
          · exact .inr (by simp [hx])), hat, if_neg hne]
      · intro x hx hxd
        rcases List.mem_cons.1 hx with rfl | hx
        · rw [g2 x (.inl hn.1), hat, if_pos rfl, hv]
        · apply g3 x hx
          rw [List.mem_append, List.mem_singleton, not_or]
          exact ⟨hxd, fun h => hn.1 (by rw [← h]; exact hx)⟩

/-- the entries of two dictionaries, where values for the same key are catenated -/
def JoinedBy (cat : V → V → Res V) (l r d : Dict K V) : Prop :=
  d.keys = unionKeys l.keys r.keys ∧ ∀ k ∈ unionKeys l.keys r.keys, ∃ w, JoinValue cat (l.at k) (r.at k) (.ok w) ∧ d.at k = some w

theorem joinDicts_ok (cat : V → V → Res V) (b : Bool) (l r : Dict K V) (hl : GoodDict l) (hr : GoodDict r)
    (hb : b = true → ∀ k, k ∈ l.keys ↔ k ∈ r.keys) (h : ∀ k x, JoinValue cat (l.at k) (r.at k) x → ∃ w, x = .ok w) :
    ∃ d, joinDicts cat b l r = .ok d ∧ JoinedBy cat l r d ∧ GoodDict d := by
  obtain ⟨d, e, g1, g2, g3⟩ := joinLeft_ok cat b l r l.keys Dict.empty hl.nodup (by
    intro k hk
    obtain ⟨v, hv⟩ := hl.keys_some hk
    have : ∃ w, JoinValue cat (some v) (r.at k) (.ok w) := by
      cases hq : r.at k with
      | none => exact ⟨v, .left v⟩
      | some rv =>
        obtain ⟨w, hw⟩ := h k (cat v rv) (by rw [hv, hq]; exact .both v rv)
        refine ⟨w, ?_⟩
        rw [← hw]
        exact .both v rv
    obtain ⟨w, hw⟩ := this
    exact ⟨v, w, hv, hw, fun hbt => (hr.mem k).1 ((hb hbt k).1 hk)⟩)
  have hk : d.keys = l.keys := by rw [g1]; rfl
  have hdm : ∀ k, k ∈ d.keys ↔ (d.at k).isSome = true := by
    intro k
    rw [hk]
    by_cases hkl : k ∈ l.keys
    · obtain ⟨w, _, hw⟩ := g3 k hkl
      rw [hw]; simp [hkl]
    · rw [g2 k hkl]
      simp [hkl, Dict.empty, Dict.at, mapGet]
  obtain ⟨d', e', q1, q2, q3⟩ := joinRight_ok b r r.keys d hr.nodup hdm (by
    intro k hkr
    refine ⟨(hr.mem k).1 hkr, fun hbt => ?_⟩
    rw [hk]
    exact (hb hbt k).2 hkr)
  have hkeys : d'.keys = unionKeys l.keys r.keys := by rw [q1, hk]; rfl
  have hval : ∀ k ∈ unionKeys l.keys r.keys, ∃ w, JoinValue cat (l.at k) (r.at k) (.ok w) ∧ d'.at k = some w := by
    intro k hku
    rw [mem_unionKeys] at hku
    by_cases hkl : k ∈ l.keys
    · obtain ⟨w, h1, h2⟩ := g3 k hkl
      exact ⟨w, h1, by rw [q2 k (.inr (by rw [hk]; exact hkl)), h2]⟩
    · obtain ⟨v, hv⟩ := hr.keys_some (hku.resolve_left hkl)
      refine ⟨v, ?_, by rw [q3 k (hku.resolve_left hkl) (by rw [hk]; exact hkl), hv]⟩
      rw [at_none hl hkl, hv]
      exact .right v
  refine ⟨d', ?_, ⟨hkeys, hval⟩, ?_⟩
  · unfold joinDicts
    rw [if_neg]
    · simp only [e, e', bind, Except.bind]
    · rintro ⟨hbt, hlen⟩
      apply hlen
      have hp : l.keys.Perm r.keys := (List.perm_ext_iff_of_nodup hl.nodup hr.nodup).2 (fun k => hb hbt k)
      exact hp.length_eq
  · refine goodDict_of hkeys (unionKeys_nodup hl.nodup hr.nodup) ?_ (fun k hk => by
      obtain ⟨w, _, hw⟩ := hval k hk
      exact ⟨w, hw⟩)
    intro k hku
    rw [mem_unionKeys, not_or] at hku
    rw [q2 k (.inl hku.2), g2 k hku.1]
    rfl

/-- **C68.** D,E of two dictionaries joins the entries: keys on one side only keep their value, the values of common keys are catenated. -/
theorem C68_dicts (vecLen : V → Option Nat) (cat : V → V → Res V) (l r : Dict K V) (hl : GoodDict l) (hr : GoodDict r)
    (h : ∀ k x, JoinValue cat (l.at k) (r.at k) x → ∃ w, x = .ok w) :
    ∃ d, catenateObjects vecLen cat false (.dict l) (.dict r) = .ok (.dict d) ∧ JoinedBy cat l r d ∧ GoodDict d := by
  obtain ⟨d, e, h1, h2⟩ := joinDicts_ok cat false l r hl hr (by simp) h
  refine ⟨d, ?_, h1, h2⟩
  simp only [catenateObjects, catenateTwo, e]
  rfl

/-- **C68.** D⍪E of two dictionaries (and with any other axis) merges them: the entries of E replace those of D. -/
theorem C68_merge (vecLen : V → Option Nat) (cat : V → V → Res V) (l r : Dict K V) (hl : GoodDict l) (hr : GoodDict r) :
    ∃ d, catenateObjects vecLen cat true (.dict l) (.dict r) = .ok (.dict d) ∧ Merged l r d ∧ GoodDict d := by
  obtain ⟨d, e, h1, h2⟩ := mergeDicts_ok l r hl hr
  refine ⟨d, ?_, h1, h2⟩
  simp only [catenateObjects, catenateTwo, e]
  rfl

/-- **C68.** T,U of two tables with the same number of rows puts the columns side by side; the columns of U replace those of T with the same
name. -/
theorem C68_columns (vecLen : V → Option Nat) (cat : V → V → Res V) (n : Nat) (l r : Dict K V) (hl : GoodObj vecLen (.tab ⟨l, n⟩))
    (hr : GoodObj vecLen (.tab ⟨r, n⟩)) (hne : l.keys ≠ [] ∨ r.keys ≠ []) :
    ∃ d, catenateObjects vecLen cat false (.tab ⟨l, n⟩) (.tab ⟨r, n⟩) = .ok (.tab ⟨d, n⟩) ∧ Merged l r d ∧ GoodObj vecLen (.tab ⟨d, n⟩) := by
  obtain ⟨d, e, h1, h2⟩ := mergeDicts_ok l r hl.1 hr.1
  have hrows : ∀ k v, d.at k = some v → vecLen v = some n := by
    intro k v hv
    rw [h1.2] at hv
    split at hv
    · exact hr.2 k v hv
    · exact hl.2 k v hv
  have hdn : d.keys ≠ [] := by
    rw [h1.1]
    intro hc
    rcases hne with h | h
    · obtain ⟨k, hk⟩ := List.exists_mem_of_ne_nil _ h
      have := (mem_unionKeys l.keys r.keys k).2 (.inl hk)
      rw [hc] at this; cases this
    · obtain ⟨k, hk⟩ := List.exists_mem_of_ne_nil _ h
      have := (mem_unionKeys l.keys r.keys k).2 (.inr hk)
      rw [hc] at this; cases this
  refine ⟨d, ?_, h1, h2, hrows⟩
  simp only [catenateObjects, catenateTwo, e]
  show Except.ok (DObj.tab (dict2table vecLen d)) = _
  rw [dict2table_rows vecLen d h2 n hdn hrows]

/-- **C68.** T⍪U of two tables with the same columns (in any order) appends the rows: each column of T is catenated with that of U, and
the result has as many rows as both together. -/
theorem C68_rows (vecLen : V → Option Nat) (cat : V → V → Res V) (n p : Nat) (l r : Dict K V) (hl : GoodObj vecLen (.tab ⟨l, n⟩))
    (hr : GoodObj vecLen (.tab ⟨r, p⟩)) (hne : l.keys ≠ []) (hk : ∀ k, k ∈ l.keys ↔ k ∈ r.keys)
    (hcat : ∀ k a b, l.at k = some a → r.at k = some b → ∃ w, cat a b = .ok w ∧ vecLen w = some (n + p)) :
    ∃ d, catenateObjects vecLen cat true (.tab ⟨l, n⟩) (.tab ⟨r, p⟩) = .ok (.tab ⟨d, n + p⟩) ∧ d.keys = l.keys ∧
      (∀ k ∈ l.keys, ∃ a b w, l.at k = some a ∧ r.at k = some b ∧ cat a b = .ok w ∧ d.at k = some w) ∧ GoodObj vecLen (.tab ⟨d, n + p⟩) := by
  have hjv : ∀ k x, JoinValue cat (l.at k) (r.at k) x → ∃ a b, l.at k = some a ∧ r.at k = some b ∧ x = cat a b := by
    intro k x hx
    cases hlk : l.at k with
    | none =>
      have : k ∉ r.keys := fun hc => by
        obtain ⟨x, hx'⟩ := hl.1.keys_some ((hk k).2 hc)
        have hx2 : l.at k = some x := hx'
        rw [hlk] at hx2; cases hx2
      rw [hlk, at_none hr.1 this] at hx
      cases hx
    | some a =>
      obtain ⟨b, hb⟩ := hr.1.keys_some ((hk k).1 ((hl.1.mem k).2 (by simp [hlk])))
      have hb' : r.at k = some b := hb
      rw [hlk, hb'] at hx
      cases hx
      exact ⟨a, b, rfl, hb, rfl⟩
  obtain ⟨d, e, h1, h2⟩ := joinDicts_ok cat true l r hl.1 hr.1 (fun _ => hk) (by
    intro k x hx
    obtain ⟨a, b, ha, hb, rfl⟩ := hjv k x hx
    obtain ⟨w, hw, _⟩ := hcat k a b ha hb
    exact ⟨w, hw⟩)
  have hkeys : d.keys = l.keys := by
    rw [h1.1]
    unfold unionKeys
    rw [List.filter_eq_nil_iff.2, List.append_nil]
    intro k hkr
    simpa using (hk k).2 hkr
  have hval : ∀ k ∈ l.keys, ∃ a b w, l.at k = some a ∧ r.at k = some b ∧ cat a b = .ok w ∧ d.at k = some w := by
    intro k hkl
    obtain ⟨w, hw1, hw2⟩ := h1.2 k ((mem_unionKeys _ _ _).2 (.inl hkl))
    obtain ⟨a, b, ha, hb, hx⟩ := hjv k _ hw1
    exact ⟨a, b, w, ha, hb, hx.symm, hw2⟩
  have hrows : ∀ k v, d.at k = some v → vecLen v = some (n + p) := by
    intro k v hv
    have hkl : k ∈ l.keys := by
      rw [← hkeys]
      exact (h2.mem k).2 (by rw [hv]; rfl)
    obtain ⟨a, b, w, ha, hb, hw, hdw⟩ := hval k hkl
    obtain ⟨w', hw', hlen⟩ := hcat k a b ha hb
    rw [hw] at hw'
    cases hw'
    rw [hv] at hdw
    cases hdw
    exact hlen
  refine ⟨d, ?_, hkeys, hval, h2, hrows⟩
  simp only [catenateObjects, catenateTwo, e]
  show Except.ok (DObj.tab (dict2table vecLen d)) = _
  rw [dict2table_rows vecLen d h2 (n + p) (by rw [hkeys]; exact hne) hrows]

theorem joinLeft_missing (cat : V → V → Res V) (l r : Dict K V) (ks : List K) (d : Dict K V) (h : ∃ k ∈ ks, r.at k = none) :
    ∃ e, joinLeft cat true l r ks d = .error e := by
  induction ks generalizing d with
  | nil => obtain ⟨k, hk, _⟩ := h; cases hk
  | cons k ks ih =>
    simp only [joinLeft]
    cases l.at k with
    | none => exact ⟨_, rfl⟩
    | some lv =>
      cases hr : r.at k with
      | none => exact ⟨_, rfl⟩
      | some rv =>
        simp only [bind, Except.bind]
        cases cat lv rv with
        | error e => exact ⟨_, rfl⟩
        | ok w =>
          obtain ⟨k', hk', hr'⟩ := h
          rcases List.mem_cons.1 hk' with rfl | hk'
          · rw [hr] at hr'; cases hr'
          · exact ih _ ⟨k', hk', hr'⟩

/-- **C68.** Tables with different columns cannot be appended. -/
theorem C68_rows_different (vecLen : V → Option Nat) (cat : V → V → Res V) (l r : Tab K V) (hl : GoodDict l.dict) (hr : GoodDict r.dict)
    (h : ¬ ∀ k, k ∈ l.dict.keys ↔ k ∈ r.dict.keys) : ∃ e, catenateObjects vecLen cat true (.tab l) (.tab r) = .error e := by
  simp only [catenateObjects, catenateTwo]
  show ∃ e, (joinDicts cat true l.dict r.dict).map _ = Except.error e
  unfold joinDicts
  by_cases hlen : l.dict.keys.length = r.dict.keys.length
  · rw [if_neg (by simp [hlen])]
    have : ∃ k ∈ l.dict.keys, r.dict.at k = none := by
      by_contra hc
      apply h
      have hsub : l.dict.keys ⊆ r.dict.keys := by
        intro k hk
        by_contra hkr
        exact hc ⟨k, hk, at_none hr hkr⟩
      have hp : l.dict.keys.Perm r.dict.keys := (hl.nodup.subperm hsub).perm_of_length_le (by omega)
      intro k
      exact hp.mem_iff
    obtain ⟨e, he⟩ := joinLeft_missing cat l.dict r.dict l.dict.keys Dict.empty this
    exact ⟨e, by simp only [he, bind, Except.bind, Except.map]⟩
  · rw [if_pos ⟨rfl, hlen⟩]
    exact ⟨_, rfl⟩

/-- **C68.** A table cannot be catenated with a dictionary on its right. -/
theorem C68_mixed (vecLen : V → Option Nat) (cat : V → V → Res V) (axis : Bool) (t : Tab K V) (d : Dict K V) :
    catenateObjects vecLen cat axis (.tab t) (.dict d) = .error .err := rfl

/-- **C68.** A value catenated with a dictionary or table (on either side, with any axis) is catenated with each of its values. -/
theorem C68_value (vecLen : V → Option Nat) (cat : V → V → Res V) (left : Bool) (x : V) (R : DObj K V) (hR : GoodDict R.src)
    (h : ∀ k v, R.src.at k = some v → ∃ w, (if left then cat x v else cat v x) = .ok w) :
    ∃ o, catenateAny vecLen cat left x R = .ok o ∧ o.isTable = R.isTable ∧ o.src.keys = R.src.keys ∧ GoodDict o.src ∧
      ∀ k v, R.src.at k = some v → ∃ w, (if left then cat x v else cat v x) = .ok w ∧ o.src.at k = some w :=
  C67_value vecLen cat left x R hR h

/-- **C68, counterexample.** T,U with different numbers of rows is not rejected: the result is not a proper table. -/
theorem C68_different_rows (vecLen : V → Option Nat) (cat : V → V → Res V) (n p : Nat) (hnp : n ≠ p) (l r : Dict K V) (hl : GoodObj vecLen (.tab ⟨l, n⟩))
    (hr : GoodObj vecLen (.tab ⟨r, p⟩)) (a b : K) (ha : a ∈ l.keys) (har : a ∉ r.keys) (hb : b ∈ r.keys) :
    ∃ o, catenateObjects vecLen cat false (.tab ⟨l, n⟩) (.tab ⟨r, p⟩) = .ok o ∧ ¬ GoodObj vecLen o := by
  obtain ⟨d, e, h1, h2⟩ := mergeDicts_ok l r hl.1 hr.1
  refine ⟨.tab (dict2table vecLen d), ?_, ?_⟩
  · simp only [catenateObjects, catenateTwo, e]
    rfl
  · intro hg
    obtain ⟨x, hx⟩ := hl.1.keys_some ha
    obtain ⟨y, hy⟩ := hr.1.keys_some hb
    have e1 : (dict2table vecLen d).dict.at a = some x := by
      show d.at a = some x
      rw [h1.2, if_neg har]
      exact hx
    have e2 : (dict2table vecLen d).dict.at b = some y := by
      show d.at b = some y
      rw [h1.2, if_pos hb]
      exact hy
    have r1 := hg.2 a x e1
    have r2 := hg.2 b y e2
    rw [hl.2 a x hx] at r1
    rw [hr.2 b y hy, ← r1] at r2
    cases r2
    exact hnp rfl

/-! ### Examples -/
namespace TabDemo

/-- values are vectors of numbers; a scalar is none -/
abbrev Vec := List Int

def lenV (v : Vec) : Option Nat := some v.length
def negV (v : Vec) : Res Vec := .ok (v.map (- ·))
def zeroV (v : Vec) : Vec := v.map (fun _ => 0)
def addV (a b : Vec) : Res Vec := if a.length = b.length then .ok (a.zipWith (· + ·) b) else .error .err
def catV (a b : Vec) : Res Vec := .ok (a ++ b)

def d1 : Dict String Vec := ⟨["a", "b"], [("a", [1, 2]), ("b", [3, 4])]⟩
def d2 : Dict String Vec := ⟨["b", "c"], [("b", [10, 20]), ("c", [30, 40])]⟩

theorem good_of (d : Dict String Vec) (ks : List String) (vs : List Vec) (hd : d = ⟨ks, ks.zip vs⟩) (hn : ks.Nodup) (hl : ks.length = vs.length) : GoodDict d := by
  subst hd
  refine ⟨hn, ?_⟩
  clear hn
  intro k
  show k ∈ ks ↔ (mapGet (ks.zip vs) k).isSome = true
  induction ks generalizing vs with
  | nil => simp [mapGet]
  | cons a ks ih =>
    cases vs with
    | nil => simp at hl
    | cons v vs =>
      simp only [List.zip_cons_cons, mapGet, List.mem_cons]
      by_cases h : a = k
      · subst h; simp
      · rw [if_neg h, ← ih vs (by simpa using hl)]
        exact ⟨fun hk => hk.resolve_left (Ne.symm h), .inr⟩

theorem d1_good : GoodDict d1 := good_of d1 ["a", "b"] [[1, 2], [3, 4]] rfl (by decide) rfl
theorem d2_good : GoodDict d2 := good_of d2 ["b", "c"] [[10, 20], [30, 40]] rfl (by decide) rfl

theorem t1_good : GoodObj lenV (.tab ⟨d1, 2⟩) := by
  refine ⟨d1_good, ?_⟩
  intro k v hv
  simp only [d1, Dict.at, mapGet] at hv
  split at hv
  · cases hv; rfl
  · split at hv
    · cases hv; rfl
    · cases hv

theorem t2_good : GoodObj lenV (.tab ⟨d2, 2⟩) := by
  refine ⟨d2_good, ?_⟩
  intro k v hv
  simp only [d2, Dict.at, mapGet] at hv
  split at hv
  · cases hv; rfl
  · split at hv
    · cases hv; rfl
    · cases hv

/-- `T+U` -/
example : tableBoth lenV zeroV addV (.tab ⟨d1, 2⟩) (.tab ⟨d2, 2⟩) = .ok (.tab ⟨⟨["a", "b", "c"], [("a", [1, 2]), ("b", [13, 24]), ("c", [30, 40])]⟩, 2⟩) := rfl

/-- `-D` -/
example : ∃ o, table1 lenV negV (.dict d1) = .ok o ∧ o.src.keys = ["a", "b"] := by
  obtain ⟨o, h1, _, h2, _⟩ := C67_monadic lenV negV (.dict d1) d1_good (fun _ _ _ => ⟨_, rfl⟩)
  exact ⟨o, h1, h2⟩

/-- `T,U`, `T⍪T`, `D,E` -/
example : ∃ d, catenateObjects lenV catV false (.tab ⟨d1, 2⟩) (.tab ⟨d2, 2⟩) = .ok (.tab ⟨d, 2⟩) ∧ Merged d1 d2 d := by
  obtain ⟨d, h1, h2, _⟩ := C68_columns lenV catV 2 d1 d2 t1_good t2_good (.inl (by decide))
  exact ⟨d, h1, h2⟩

example : catenateObjects lenV catV true (.tab ⟨d1, 2⟩) (.tab ⟨d1, 2⟩) = .ok (.tab ⟨⟨["a", "b"], [("a", [1, 2, 1, 2]), ("b", [3, 4, 3, 4])]⟩, 4⟩) := rfl
example : catenateObjects lenV catV false (.dict d1) (.dict d2) = .ok (.dict ⟨["a", "b", "c"], [("a", [1, 2]), ("b", [3, 4, 10, 20]), ("c", [30, 40])]⟩) := rfl

end TabDemo

end Iv

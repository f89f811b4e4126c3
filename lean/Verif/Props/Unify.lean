import Verif.Model.Unify
import Verif.Props.Tower
import Verif.Lemmas.Reshape
import Mathlib.Data.List.Forall2
/-
C55: unification of arrays.
-/
namespace Iv
variable {V O : Type}

/-- the same value, up to a conversion of the number type -/
def SameVal (t : Tower V) (x y : UItem V O) : Prop := y = x ∨ ∃ a b, x = .num a ∧ y = .num b ∧ Conv t a b

/-- a number of a type of the tower -/
def Known (t : Tower V) (x : UItem V O) : Prop := ∃ n, x = .num n ∧ cls n < t.len

theorem classOf_some (t : Tower V) (x : UItem V O) (c : Int) : t.classOf x.type = some c ↔ ∃ n, x = .num n ∧ cls n = c ∧ (0 ≤ c → cls n < t.len) := by
  cases x with
  | num n =>
    cases n with
    | bool b => simp only [UItem.type, Tower.classOf, Option.some.injEq, UItem.num.injEq]; constructor
                · rintro rfl; exact ⟨_, rfl, rfl, by omega⟩
                · rintro ⟨n, rfl, h, _⟩; exact h
    | int b => simp only [UItem.type, Tower.classOf, Option.some.injEq, UItem.num.injEq]; constructor
               · rintro rfl; exact ⟨_, rfl, rfl, by omega⟩
               · rintro ⟨n, rfl, h, _⟩; exact h
    | num k v =>
      simp only [UItem.type, Tower.classOf, UItem.num.injEq]
      constructor
      · intro h
        split at h
        · cases h; exact ⟨_, rfl, rfl, fun _ => by simp only [cls]; omega⟩
        · cases h
      · rintro ⟨n, rfl, rfl, h⟩
        have := h (by simp only [cls]; omega)
        simp only [cls] at this ⊢
        rw [if_pos (by omega)]
  | str s => simp [UItem.type, Tower.classOf]
  | other ty v => simp [UItem.type, Tower.classOf]

theorem classOf_none (t : Tower V) (x : UItem V O) : t.classOf x.type = none ↔ ∀ n, x = .num n → ¬ (0 ≤ cls n → cls n < t.len) := by
  constructor
  · rintro h n rfl h'
    have := (classOf_some t (O := O) (.num n) (cls n)).2 ⟨n, rfl, rfl, h'⟩
    rw [h] at this
    cases this
  · intro h
    cases hc : t.classOf x.type with
    | none => rfl
    | some c =>
      obtain ⟨n, rfl, rfl, h'⟩ := (classOf_some t x c).1 hc
      exact absurd h' (h n rfl)

/-- what the loop knows about the elements it has seen -/
def Seen (t : Tower V) (t0 : GoType) (s : ScanSt V) (seen : List (UItem V O)) : Prop :=
  (s.sametype = true ↔ ∀ x ∈ seen, x.type = t0) ∧
  match s.max with
  | none => ∃ x ∈ seen, t.classOf x.type = none
  | some m => (∀ x ∈ seen, ∃ c, t.classOf x.type = some c ∧ c ≤ m) ∧ ∃ n, s.maxnumber = some n ∧ .num n ∈ seen ∧ cls n = m

theorem unifyMax_sametype (t : Tower V) (s : ScanSt V) (v : UItem V O) : (t.unifyMax s v).sametype = s.sametype := by
  unfold Tower.unifyMax
  split
  · rfl
  · split
    · rfl
    · split <;> rfl

theorem unifyMax_seen (t : Tower V) (t0 : GoType) (s : ScanSt V) (v : UItem V O) (seen : List (UItem V O)) (b : Bool) (h : Seen t t0 s seen)
    (hb : b = (s.sametype && decide (v.type = t0))) : Seen t t0 (t.unifyMax { s with sametype := b } v) (seen ++ [v]) := by
  obtain ⟨h1, h2⟩ := h
  refine ⟨?_, ?_⟩
  · rw [unifyMax_sametype]
    simp only [hb, Bool.and_eq_true, decide_eq_true_eq, List.mem_append, List.mem_singleton]
    rw [h1]
    constructor
    · rintro ⟨h, e⟩ x (hx | rfl)
      · exact h x hx
      · exact e
    · intro h
      exact ⟨fun x hx => h x (.inl hx), h v (.inr rfl)⟩
  · unfold Tower.unifyMax
    cases hm : s.max with
    | none =>
      rw [hm] at h2
      obtain ⟨x, hx, e⟩ := h2
      simp only [hm]
      exact ⟨x, List.mem_append_left _ hx, e⟩
    | some m =>
      rw [hm] at h2
      obtain ⟨h3, n, h4, h5, h6⟩ := h2
      simp only
      cases hc : t.classOf v.type with
      | none => exact ⟨v, by simp, hc⟩
      | some c =>
        simp only
        obtain ⟨n', rfl, rfl, hn'⟩ := (classOf_some t v c).1 hc
        by_cases hgt : cls n' > m
        · rw [if_pos hgt]
          refine ⟨?_, n', rfl, by simp, rfl⟩
          intro x hx
          rcases List.mem_append.1 hx with hx | hx
          · obtain ⟨c, e, hle⟩ := h3 x hx
            exact ⟨c, e, by omega⟩
          · simp at hx; subst hx; exact ⟨_, hc, Int.le_refl _⟩
        · rw [if_neg hgt]
          refine ⟨?_, n, h4, List.mem_append_left _ h5, h6⟩
          intro x hx
          rcases List.mem_append.1 hx with hx | hx
          · exact h3 x hx
          · simp at hx; subst hx; exact ⟨_, hc, by omega⟩

theorem unifyScan_true (t : Tower V) (t0 : GoType) (vs seen : List (UItem V O)) (s : ScanSt V) (h : Seen t t0 s seen) :
    ∃ s', t.unifyScan true t0 s vs = some s' ∧ Seen t t0 s' (seen ++ vs) := by
  induction vs generalizing s seen with
  | nil => exact ⟨s, rfl, by simpa using h⟩
  | cons v vs ih =>
    have := unifyMax_seen t t0 s v seen _ h rfl
    obtain ⟨s', h1, h2⟩ := ih (seen ++ [v]) _ this
    refine ⟨s', ?_, by simpa using h2⟩
    rw [Tower.unifyScan]
    by_cases hv : v.type = t0
    · rw [if_neg (by simpa using hv)]
      simpa [hv] using h1
    · rw [if_pos hv]
      simpa [hv] using h1

theorem unifyScan_false (t : Tower V) (t0 : GoType) (vs seen : List (UItem V O)) (s : ScanSt V) (h : Seen t t0 s seen) :
    (∃ s', t.unifyScan false t0 s vs = some s' ∧ Seen t t0 s' (seen ++ vs) ∧ ∀ x ∈ vs, x.type = t0) ∨
      (t.unifyScan false t0 s vs = none ∧ ∃ x ∈ vs, x.type ≠ t0) := by
  induction vs generalizing s seen with
  | nil => exact .inl ⟨s, rfl, by simpa using h, by simp⟩
  | cons v vs ih =>
    rw [Tower.unifyScan]
    by_cases hv : v.type = t0
    · rw [if_neg (by simpa using hv)]
      have := unifyMax_seen t t0 s v seen _ h rfl
      simp only [hv, decide_true, Bool.and_true] at this
      rcases ih (seen ++ [v]) _ this with ⟨s', h1, h2, h3⟩ | ⟨h1, x, hx, e⟩
      · exact .inl ⟨s', h1, by simpa using h2, by
          intro x hx
          rcases List.mem_cons.1 hx with rfl | hx
          · exact hv
          · exact h3 x hx⟩
      · exact .inr ⟨h1, x, List.mem_cons_of_mem _ hx, e⟩
    · rw [if_pos hv, if_pos rfl]
      exact .inr ⟨rfl, v, by simp, hv⟩

theorem seen_start (t : Tower V) (v0 : UItem V O) :
    Seen t v0.type ⟨t.classOf v0.type, if (t.classOf v0.type).isSome then v0.number else none, true⟩ [v0] := by
  refine ⟨by simp, ?_⟩
  simp only
  cases hc : t.classOf v0.type with
  | none => exact ⟨v0, by simp, hc⟩
  | some c =>
    obtain ⟨n, rfl, rfl, _⟩ := (classOf_some t v0 c).1 hc
    exact ⟨by simp [hc], n, by simp [UItem.number], by simp, rfl⟩

theorem cycFill_self {α : Type} (l : List α) (h : l ≠ []) : cycFill l l.length 0 = .ok l := by
  obtain ⟨d, e, hl, hd⟩ := cycFill_ok l l.length 0 (List.length_pos_iff.2 h)
  rw [e]
  congr 1
  apply List.ext_getElem? 
  intro i
  by_cases hi : i < l.length
  · rw [hd i hi, Nat.zero_add, Nat.mod_eq_of_lt hi]
  · rw [List.getElem?_eq_none (by omega), List.getElem?_eq_none (by omega)]

theorem uniformOf_eq (uni : GoType → Bool) (shape : List Nat) (l : List (UItem V O)) (v0 : UItem V O) (h0 : l.head? = some v0) (hl : l.length = prod shape) :
    uniformOf uni shape l = if uni v0.type then some ⟨.compact v0.type, shape, l⟩ else none := by
  cases l with
  | nil => cases h0
  | cons v vs =>
    simp at h0
    subst h0
    rw [uniformOf, ← hl, cycFill_self _ (by simp)]

theorem unifyConv_spec (t : Tower V) (mx : TNum V) (l vs : List (UItem V O)) (h : t.unifyConv mx l = some vs) :
    List.Forall₂ (fun x y => ∃ a b c, x = .num a ∧ y = .num b ∧ t.sameType a mx = .ok (b, c)) l vs := by
  induction l generalizing vs with
  | nil => cases h; exact .nil
  | cons x l ih =>
    cases x with
    | num a =>
      rw [Tower.unifyConv] at h
      cases hs : t.sameType a mx with
      | error e => rw [hs] at h; cases h
      | ok p =>
        rw [hs] at h
        obtain ⟨b, c⟩ := p
        simp only at h
        cases hr : t.unifyConv mx l with
        | none => rw [hr] at h; cases h
        | some r =>
          rw [hr] at h
          cases h
          exact .cons ⟨a, b, c, rfl, rfl, hs⟩ (ih r hr)
    | str s => cases h
    | other ty v => cases h

theorem unifyConv_total (t : Tower V) (mx : TNum V) (l : List (UItem V O)) (h : ∀ x ∈ l, ∃ a b c, x = .num a ∧ t.sameType a mx = .ok (b, c)) :
    ∃ vs, t.unifyConv mx l = some vs := by
  induction l with
  | nil => exact ⟨[], rfl⟩
  | cons x l ih =>
    obtain ⟨a, b, c, rfl, hs⟩ := h x (by simp)
    obtain ⟨vs, e⟩ := ih (fun y hy => h y (by simp [hy]))
    exact ⟨_, by rw [Tower.unifyConv, hs]; simp only [e]; rfl⟩

/-- The cases of `unify` for arrays that are not empty and not yet uniform. -/
theorem unify_cases (t : Tower V) (uni : GoType → Bool) (A : UArr V O) (uptype : Bool) (hw : A.items.length = prod A.shape)
    (he : A.rep ≠ .empty) (hc : ∀ ty, A.rep ≠ .compact ty) (v0 : UItem V O) (vs : List (UItem V O)) (hi : A.items = v0 :: vs) :
    ((∀ x ∈ A.items, x.type = v0.type) ∧ (t.unify uni A uptype = (A, true) ∨ t.unify uni A uptype = (⟨.compact v0.type, A.shape, A.items⟩, true))) ∨
    ((∃ x ∈ A.items, x.type ≠ v0.type) ∧
      ((t.unify uni A uptype = (A, false) ∧ (uptype = false ∨ (∃ x ∈ A.items, t.classOf x.type = none) ∨
          ∃ mx, .num mx ∈ A.items ∧ (∀ x ∈ A.items, ∃ c, t.classOf x.type = some c ∧ c ≤ cls mx) ∧
            ((∃ x a, x ∈ A.items ∧ x = .num a ∧ ∀ r, t.sameType a mx ≠ .ok r) ∨
              ∃ values w, t.unifyConv mx A.items = some values ∧ values.head? = some w ∧ uni w.type = false))) ∨
       (uptype = true ∧ ∃ mx values w, .num mx ∈ A.items ∧ (∀ x ∈ A.items, ∃ c, t.classOf x.type = some c ∧ c ≤ cls mx) ∧
          t.unifyConv mx A.items = some values ∧ values.head? = some w ∧ t.unify uni A uptype = (⟨.compact w.type, A.shape, values⟩, true)))) := by
  have hu : t.unify uni A uptype = (match t.unifyScan uptype v0.type ⟨t.classOf v0.type, if (t.classOf v0.type).isSome then v0.number else none, true⟩ vs with
      | none => (A, false)
      | some s =>
        if s.sametype then t.unifySame uni A v0.type s.max
        else
          match s.max, s.maxnumber with
          | some _, some mx =>
            match t.unifyConv mx A.items with
            | none => (A, false)
            | some values =>
              match uniformOf uni A.shape values with
              | some u => (u, true)
              | none => (A, false)
          | _, _ => (A, false)) := by
    rw [Tower.unify]
    split
    · rename_i h; exact absurd h he
    · rename_i h; exact absurd h (hc _)
    · split
      · rename_i h; rw [hi] at h; cases h
      · rename_i h; rw [hi] at h; cases h; rfl
  have same : ∀ (m : Option Int), (∀ x ∈ A.items, x.type = v0.type) →
      (t.unifySame uni A v0.type m = (A, true) ∨ t.unifySame uni A v0.type m = (⟨.compact v0.type, A.shape, A.items⟩, true)) := by
    intro m _
    rw [Tower.unifySame.eq_def]
    split
    · rw [uniformOf_eq uni A.shape A.items v0 (by rw [hi]; rfl) hw]
      split
      · split
        · exact .inl rfl
        · rename_i h
          split at h
          · cases h; exact .inr rfl
          · cases h
      · split
        · exact .inl rfl
        · rename_i h
          split at h
          · cases h; exact .inr rfl
          · cases h
      · exact .inl rfl
    · split
      · rename_i h; rw [h]; exact .inr rfl
      · exact .inl rfl
  have st := seen_start t v0
  cases uptype with
  | false =>
    rcases unifyScan_false t v0.type vs [v0] _ st with ⟨s', h1, h2, h3⟩ | ⟨h1, x, hx, e⟩
    · left
      have hall : ∀ x ∈ A.items, x.type = v0.type := by
        rw [hi]
        intro x hx
        rcases List.mem_cons.1 hx with rfl | hx
        · rfl
        · exact h3 x hx
      refine ⟨hall, ?_⟩
      rw [hu, h1]
      simp only
      rw [if_pos (h2.1.2 (by rw [List.singleton_append, ← hi]; exact hall))]
      exact same _ hall
    · right
      refine ⟨⟨x, by rw [hi]; exact List.mem_cons_of_mem _ hx, e⟩, .inl ⟨?_, .inl rfl⟩⟩
      rw [hu, h1]
  | true =>
    obtain ⟨s', h1, h2⟩ := unifyScan_true t v0.type vs [v0] _ st
    rw [List.singleton_append, ← hi] at h2
    rw [hu, h1]
    simp only
    cases hsame : s'.sametype with
    | true =>
      left
      have hall := h2.1.1 hsame
      refine ⟨hall, ?_⟩
      simp only [if_true]
      exact same _ hall
    | false =>
      right
      simp only [Bool.false_eq_true, if_false]
      have hne : ∃ x ∈ A.items, x.type ≠ v0.type := by
        apply Classical.byContradiction
        intro h
        have := h2.1.2 (fun x hx => Classical.byContradiction fun h' => h ⟨x, hx, h'⟩)
        rw [hsame] at this
        cases this
      refine ⟨hne, ?_⟩
      have h3 := h2.2
      cases hm : s'.max with
      | none =>
        rw [hm] at h3
        left
        refine ⟨rfl, .inr (.inl h3)⟩
      | some m =>
        rw [hm] at h3
        obtain ⟨h4, mx, h5, h6, rfl⟩ := h3
        rw [h5]
        simp only
        cases hv : t.unifyConv mx A.items with
        | none =>
          left
          refine ⟨rfl, .inr (.inr ⟨mx, h6, h4, .inl ?_⟩)⟩
          apply Classical.byContradiction
          intro hno
          obtain ⟨values, e⟩ := unifyConv_total t mx A.items (fun x hx => by
            obtain ⟨c, ec, _⟩ := h4 x hx
            obtain ⟨n, rfl, _⟩ := (classOf_some t x c).1 ec
            cases hs : t.sameType n mx with
            | ok r => exact ⟨n, r.1, r.2, rfl, hs⟩
            | error e => exact absurd ⟨_, n, hx, rfl, fun r hr => by rw [hs] at hr; cases hr⟩ hno)
          rw [hv] at e
          cases e
        | some values =>
          have hf := unifyConv_spec t mx _ _ hv
          have hlen := hf.length_eq
          cases values with
          | nil => rw [hi] at hlen; simp at hlen
          | cons w ws =>
            simp only
            rw [uniformOf_eq uni A.shape (w :: ws) w rfl (by rw [← hlen, hw])]
            cases hw' : uni w.type with
            | true =>
              right
              exact ⟨trivial, mx, _, w, h6, h4, hv, rfl, by simp [hw']⟩
            | false =>
              left
              refine ⟨by simp [hw'], .inr (.inr ⟨mx, h6, h4, .inr ⟨_, w, hv, rfl, hw'⟩⟩)⟩

theorem forall2_refl {t : Tower V} (l : List (UItem V O)) : List.Forall₂ (SameVal t) l l := by
  induction l with
  | nil => exact .nil
  | cons x l ih => exact .cons (.inl rfl) ih

/-- Unification keeps the shape and every value (up to the number type); without type promotion the elements are unchanged. -/
theorem C55_preserves (t : Tower V) (uni : GoType → Bool) (A : UArr V O) (uptype : Bool) (hw : A.items.length = prod A.shape) :
    (t.unify uni A uptype).1.shape = A.shape ∧ List.Forall₂ (SameVal t) A.items (t.unify uni A uptype).1.items ∧
      (uptype = false → (t.unify uni A uptype).1.items = A.items) := by
  by_cases he : A.rep = .empty
  · have : t.unify uni A uptype = (A, false) := by rw [Tower.unify, he]
    rw [this]; exact ⟨rfl, forall2_refl _, fun _ => rfl⟩
  by_cases hc : ∃ ty, A.rep = .compact ty
  · obtain ⟨ty, hc⟩ := hc
    have : t.unify uni A uptype = (A, true) := by rw [Tower.unify, hc]
    rw [this]; exact ⟨rfl, forall2_refl _, fun _ => rfl⟩
  cases hi : A.items with
  | nil =>
    have : t.unify uni A uptype = (A, true) := by
      rw [Tower.unify, hi]
      split
      · rename_i h; exact absurd h he
      · rename_i ty h; exact absurd ⟨ty, h⟩ hc
      · rfl
    rw [this]; exact ⟨rfl, by rw [hi]; exact .nil, fun _ => hi⟩
  | cons v0 vs =>
    rw [← hi]
    rcases unify_cases t uni A uptype hw he (fun ty h => hc ⟨ty, h⟩) v0 vs hi with ⟨_, h | h⟩ | ⟨_, ⟨h, _⟩ | ⟨hup, mx, values, w, h1, h2, h3, h4, h⟩⟩
    · rw [h]; exact ⟨rfl, forall2_refl _, fun _ => rfl⟩
    · rw [h]; exact ⟨rfl, forall2_refl _, fun _ => rfl⟩
    · rw [h]; exact ⟨rfl, forall2_refl _, fun _ => rfl⟩
    · rw [h]
      refine ⟨rfl, ?_, by rw [hup]; intro h; cases h⟩
      refine (unifyConv_spec t mx _ _ h3).imp ?_
      rintro x y ⟨a, b, c, rfl, rfl, hs⟩
      exact .inr ⟨a, b, rfl, rfl, (C34_same_class t a mx b c hs).1⟩

/-- If unification does not succeed the array is returned as it is. -/
theorem C55_failed (t : Tower V) (uni : GoType → Bool) (A : UArr V O) (uptype : Bool) (hw : A.items.length = prod A.shape)
    (h : (t.unify uni A uptype).2 = false) : (t.unify uni A uptype).1 = A := by
  by_cases he : A.rep = .empty
  · rw [Tower.unify, he]
  by_cases hc : ∃ ty, A.rep = .compact ty
  · obtain ⟨ty, hc⟩ := hc
    rw [Tower.unify, hc]
  cases hi : A.items with
  | nil =>
    rw [Tower.unify, hi]
    split
    · rfl
    · rfl
    · rfl
  | cons v0 vs =>
    rcases unify_cases t uni A uptype hw he (fun ty h => hc ⟨ty, h⟩) v0 vs hi with ⟨_, h' | h'⟩ | ⟨_, ⟨h', _⟩ | ⟨hup, mx, values, w, h1, h2, h3, h4, h'⟩⟩
    all_goals rw [h'] at h ⊢
    all_goals first | rfl | cases h

/-- Without type promotion, unification of an array that is not empty (as `EmptyArray`) and not yet uniform succeeds exactly if all elements
have one type. -/
theorem C55_plain (t : Tower V) (uni : GoType → Bool) (A : UArr V O) (hw : A.items.length = prod A.shape)
    (he : A.rep ≠ .empty) (hc : ∀ ty, A.rep ≠ .compact ty) :
    (t.unify uni A false).2 = true ↔ ∀ x ∈ A.items, ∀ y ∈ A.items, x.type = y.type := by
  cases hi : A.items with
  | nil =>
    have : t.unify uni A false = (A, true) := by
      rw [Tower.unify, hi]
      split
      · rename_i h; exact absurd h he
      · rename_i ty h; exact absurd h (hc ty)
      · rfl
    rw [this]
    simp
  | cons v0 vs =>
    rw [← hi]
    rcases unify_cases t uni A false hw he hc v0 vs hi with ⟨hall, h | h⟩ | ⟨⟨x, hx, hne⟩, ⟨h, _⟩ | ⟨hup, _⟩⟩
    · rw [h]; exact ⟨fun _ x hx y hy => by rw [hall x hx, hall y hy], fun _ => rfl⟩
    · rw [h]; exact ⟨fun _ x hx y hy => by rw [hall x hx, hall y hy], fun _ => rfl⟩
    · rw [h]
      constructor
      · intro h; cases h
      · intro h; exact absurd (h x hx v0 (by rw [hi]; simp)) hne
    · cases hup

theorem sameType_cls {t : Tower V} (h0 : t.impClass = 0) {a mx b c : TNum V} (hs : t.sameType a mx = .ok (b, c)) (hle : cls a ≤ cls mx) :
    cls b = cls mx := by
  cases a <;> cases mx <;> simp only [Tower.sameType, Tower.importN] at hs
  case bool.bool => cases hs; rfl
  case int.int => cases hs; rfl
  case bool.int => cases hs; rfl
  case int.bool => simp [cls] at hle
  case num.bool => simp only [cls] at hle; omega
  case num.int => simp only [cls] at hle; omega
  case bool.num =>
    obtain ⟨_, _, h3, _⟩ := sameNum_conv hs
    rw [h3, h0]; simp only [cls]; omega
  case int.num =>
    obtain ⟨_, _, h3, _⟩ := sameNum_conv hs
    rw [h3, h0]; simp only [cls]; omega
  case num.num =>
    split at hs
    · rename_i h; cases hs; simp only [cls, h]
    · obtain ⟨_, _, h3, _⟩ := sameNum_conv hs
      rw [h3]; simp only [cls] at hle ⊢; omega

theorem type_of_cls {a b : TNum V} (h : cls a = cls b) : (UItem.num a : UItem V O).type = (UItem.num b : UItem V O).type := by
  cases a <;> cases b <;> simp only [cls] at h <;> simp only [UItem.type] <;> first | rfl | (exfalso; omega) | (congr 1; omega)

/-- With type promotion: if it succeeds, all elements of the result have one type, which is the highest type of the elements.  (In all towers
Bools and Ints are imported to class 0.) -/
theorem C55_one_type (t : Tower V) (h0 : t.impClass = 0) (uni : GoType → Bool) (A : UArr V O) (uptype : Bool) (hw : A.items.length = prod A.shape)
    (he : A.rep ≠ .empty) (hc : ∀ ty, A.rep ≠ .compact ty) (h : (t.unify uni A uptype).2 = true) :
    (∀ x ∈ (t.unify uni A uptype).1.items, ∀ y ∈ (t.unify uni A uptype).1.items, x.type = y.type) ∧
    (∀ ty, (t.unify uni A uptype).1.rep = .compact ty → ∀ x ∈ (t.unify uni A uptype).1.items, x.type = ty) ∧
    ((∀ x ∈ A.items, ∀ y ∈ A.items, x.type = y.type) ∧ (t.unify uni A uptype).1.items = A.items ∨
      uptype = true ∧ ∃ mx : TNum V, .num mx ∈ A.items ∧ ∀ x ∈ A.items, ∃ n, x = .num n ∧ cls n ≤ cls mx) := by
  cases hi : A.items with
  | nil =>
    have : t.unify uni A uptype = (A, true) := by
      rw [Tower.unify, hi]
      split
      · rename_i h; exact absurd h he
      · rename_i ty h; exact absurd h (hc ty)
      · rfl
    rw [this, hi]
    simp [hi]
  | cons v0 vs =>
    rw [← hi]
    rcases unify_cases t uni A uptype hw he hc v0 vs hi with ⟨hall, h' | h'⟩ | ⟨_, ⟨h', _⟩ | ⟨hup, mx, values, w, h1, h2, h3, h4, h'⟩⟩
    · rw [h']
      refine ⟨fun x hx y hy => by rw [hall x hx, hall y hy], fun ty hty => absurd hty (hc ty), .inl ⟨fun x hx y hy => by rw [hall x hx, hall y hy], rfl⟩⟩
    · rw [h']
      refine ⟨fun x hx y hy => by rw [hall x hx, hall y hy], ?_, .inl ⟨fun x hx y hy => by rw [hall x hx, hall y hy], rfl⟩⟩
      intro ty hty x hx
      simp only [Repr'.compact.injEq] at hty
      rw [← hty]
      exact hall x hx
    · rw [h'] at h; cases h
    · rw [h']
      have hf := unifyConv_spec t mx _ _ h3
      have hty : ∀ y ∈ values, y.type = (UItem.num mx : UItem V O).type := by
        intro y hy
        obtain ⟨i, hi', rfl⟩ := List.getElem_of_mem hy
        have hlen := hf.length_eq
        obtain ⟨a, b, c, e1, e2, hs⟩ := (List.forall₂_iff_get.1 hf).2 i (by omega) hi'
        simp only [List.get_eq_getElem] at e1 e2
        rw [e2]
        refine type_of_cls (sameType_cls h0 hs ?_)
        obtain ⟨c', ec, hle⟩ := h2 A.items[i] (List.getElem_mem _)
        obtain ⟨n, en, rfl, _⟩ := (classOf_some t _ c').1 ec
        rw [e1] at en
        cases en
        exact hle
      refine ⟨fun x hx y hy => by rw [hty x hx, hty y hy], ?_, .inr ⟨hup, mx, h1, fun x hx => ?_⟩⟩
      · intro ty e x hx
        simp only [Repr'.compact.injEq] at e
        rw [← e, hty x hx, hty w (List.mem_of_mem_head? h4)]
      · obtain ⟨c, ec, hle⟩ := h2 x hx
        obtain ⟨n, rfl, rfl, _⟩ := (classOf_some t x c).1 ec
        exact ⟨n, rfl, hle⟩

/-- With type promotion, an array of numbers of the tower is always unified, if every number can be uptyped and the tower has uniform arrays
for its types. -/
theorem C55_promotes (t : Tower V) (uni : GoType → Bool) (A : UArr V O) (hw : A.items.length = prod A.shape)
    (he : A.rep ≠ .empty) (hi : t.impClass < t.len) (hup : ∀ c v, c + 1 < t.len → (t.up c v).isSome) (hu : ∀ x : UItem V O, Known t x → uni x.type = true)
    (h0 : t.impClass = 0) (hk : ∀ x ∈ A.items, Known t x) : (t.unify uni A true).2 = true := by
  by_cases hc : ∃ ty, A.rep = .compact ty
  · obtain ⟨ty, hc⟩ := hc
    rw [Tower.unify, hc]
  cases hi' : A.items with
  | nil =>
    rw [Tower.unify, hi']
    split
    · rename_i h; exact absurd h he
    · rfl
    · rfl
  | cons v0 vs =>
    rcases unify_cases t uni A true hw he (fun ty h => hc ⟨ty, h⟩) v0 vs hi' with ⟨_, h | h⟩ | ⟨_, ⟨h, h'⟩ | ⟨_, mx, values, w, h1, h2, h3, h4, h⟩⟩
    · rw [h]
    · rw [h]
    · rcases h' with h' | ⟨x, hx, h'⟩ | ⟨mx, h1, h2, h' | h'⟩
      · cases h'
      · obtain ⟨n, rfl, hn⟩ := hk x hx
        exact absurd (fun _ => hn) ((classOf_none t _).1 h' n rfl)
      · obtain ⟨x, a, hx, rfl, h'⟩ := h'
        obtain ⟨n, e, hn⟩ := hk _ hx
        cases e
        obtain ⟨n', e, hn'⟩ := hk _ h1
        cases e
        obtain ⟨a', b', e⟩ := C34_same_class_total t a mx hi hup hn hn'
        exact absurd e (h' _)
      · obtain ⟨values, w, e1, e2, e3⟩ := h'
        have hf := unifyConv_spec t mx _ _ e1
        cases values with
        | nil => cases e2
        | cons w' ws =>
          simp at e2
          subst e2
          rw [hi'] at hf
          cases hf with
          | cons hh _ =>
            obtain ⟨a, b, c, rfl, rfl, hs⟩ := hh
            obtain ⟨c', ec, hle⟩ := h2 (.num a) (by rw [hi']; simp)
            obtain ⟨n, en, rfl, _⟩ := (classOf_some t _ c').1 ec
            cases en
            obtain ⟨n', e, hn'⟩ := hk _ h1
            cases e
            rw [hu (.num b) ⟨b, rfl, by rw [sameType_cls h0 hs hle]; exact hn'⟩] at e3
            cases e3
    · rw [h]

/-- With type promotion, an array of different types that are not all numbers of the tower is not unified. -/
theorem C55_not_numbers (t : Tower V) (uni : GoType → Bool) (A : UArr V O) (hw : A.items.length = prod A.shape)
    (he : A.rep ≠ .empty) (hc : ∀ ty, A.rep ≠ .compact ty) (x y : UItem V O) (hx : x ∈ A.items) (hy : y ∈ A.items) (hne : x.type ≠ y.type)
    (z : UItem V O) (hz : z ∈ A.items) (hn : ∀ n, z ≠ .num n) : (t.unify uni A true).2 = false := by
  cases hi : A.items with
  | nil => rw [hi] at hx; cases hx
  | cons v0 vs =>
    rcases unify_cases t uni A true hw he hc v0 vs hi with ⟨hall, _⟩ | ⟨_, ⟨h, h'⟩ | ⟨_, mx, values, w, h1, h2, _⟩⟩
    · exact absurd (by rw [hall x hx, hall y hy]) hne
    · rw [h]
    · obtain ⟨c, ec, _⟩ := h2 z hz
      obtain ⟨n, e, _⟩ := (classOf_some t z c).1 ec
      exact absurd e (hn n)

/-! ### Examples: a Bool, an Int and a number of class 1 of the tower of Props/Tower.lean -/

example : ((demoTower.unify (fun _ => true) (⟨.mixed, [3], [.num (.bool true), .num (.int 5), .num (.num 1 7)]⟩ : UArr Int Unit) true).1.items
    = [.num (.num 1 1), .num (.num 1 5), .num (.num 1 7)]) := by rfl
example : ((demoTower.unify (fun _ => true) (⟨.mixed, [3], [.num (.bool true), .num (.int 5), .num (.num 1 7)]⟩ : UArr Int Unit) true).2 = true) := by rfl
example : ((demoTower.unify (fun _ => true) (⟨.mixed, [2], [.num (.bool true), .str "a"]⟩ : UArr Int Unit) true).2 = false) := by rfl
example : ((demoTower.unify (fun _ => true) (⟨.mixed, [2], [.str "b", .str "a"]⟩ : UArr Int Unit) false).1.rep = .compact .str) := by rfl

end Iv

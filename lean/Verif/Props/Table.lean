import Verif.Model.Table
import Verif.Props.Dict
import Verif.Props.Scalar
import Verif.Lemmas.Rank
import Mathlib.Data.List.Forall2
/-
C64 tables from dictionaries, C65 indexing of tables.
-/
namespace Iv
variable {K T A F G : Type} [DecidableEq K] [DecidableEq T] [DecidableEq A] {m : Type → Type} [Monad m] [LawfulMonad m]

/-! ### Specification -/

/-- the cell of a table in a column and a row (counted from 0) -/
def Tab.cell (t : Tab K (Col T A)) (k : K) (i : Nat) : Option A := (t.dict.at k).bind (fun c => c.cells[i]?)

/-- A proper table: the keys are distinct, there is a column for each of them and for nothing else, and all columns have as many cells as
the table has rows. -/
structure GoodTable (t : Tab K (Col T A)) : Prop where
  nodup : t.dict.keys.Nodup
  mem : ∀ k, k ∈ t.dict.keys ↔ (t.dict.at k).isSome = true
  rows : ∀ k c, t.dict.at k = some c → c.cells.length = t.rows

/-- a dictionary with distinct keys that all have a value -/
structure GoodDict {V : Type} (d : Dict K V) : Prop where
  nodup : d.keys.Nodup
  mem : ∀ k, k ∈ d.keys ↔ (d.at k).isSome = true

/-- `Unify` does not change the number of elements (C55) -/
def UniLen (env : TabEnv K T A) : Prop := ∀ l u, env.uni l = some u → u.cells.length = l.length

/-- the value can be a column with the cells `l`: it is a vector, or a scalar (a column with one cell) -/
inductive AsColumn : TV A → List A → Prop
  | one (a) : AsColumn (.one a) [a]
  | vec (l) : AsColumn (.vec l) l

theorem columnOf_iff (v : TV A) (l : List A) : columnOf v = some l ↔ AsColumn v l := by
  cases v with
  | one a => simp only [columnOf, Option.some.injEq]; exact ⟨fun h => h ▸ .one a, fun h => by cases h; rfl⟩
  | vec a => simp only [columnOf, Option.some.injEq]; exact ⟨fun h => h ▸ .vec a, fun h => by cases h; rfl⟩
  | arr _ _ => simp only [columnOf]; exact ⟨(fun h => (by cases h)), (fun h => (by cases h))⟩
  | obj => simp only [columnOf]; exact ⟨(fun h => (by cases h)), (fun h => (by cases h))⟩

/-! ### C64: construction -/

theorem transLoop_sound (env : TabEnv K T A) (d : Dict K (TV A)) (ks : List K) (n : Option Nat) (t t' : Tab K (Col T A))
    (h : transLoop env d ks n t = .ok t') :
    t'.dict.keys = t.dict.keys ++ ks ∧ (∀ x, n = some x → t'.rows = x) ∧ (ks = [] → n = none → t'.rows = 0) ∧
      ∀ k, (k ∈ ks → ∃ v l u, d.at k = some v ∧ AsColumn v l ∧ l.length = t'.rows ∧ env.uni l = some u ∧ t'.dict.at k = some u) ∧
        (k ∉ ks → t'.dict.at k = t.dict.at k) := by
  induction ks generalizing n t with
  | nil =>
    simp only [transLoop] at h
    cases h
    refine ⟨by simp, fun x hx => by simp [hx], fun _ hn => by simp [hn], fun k => ⟨by simp, fun _ => rfl⟩⟩
  | cons a ks ih =>
    simp only [transLoop] at h
    cases hv : d.at a with
    | none => rw [hv] at h; cases h
    | some v =>
      rw [hv] at h
      simp only [] at h
      cases hl : columnOf v with
      | none => rw [hl] at h; cases h
      | some l =>
        rw [hl] at h
        simp only [] at h
        cases hu : env.uni l with
        | none => rw [hu] at h; cases h
        | some u =>
          rw [hu] at h
          simp only [] at h
          by_cases hn : n.isSome ∧ n ≠ some l.length
          · rw [if_pos hn] at h; cases h
          · rw [if_neg hn] at h
            obtain ⟨h1, h2, _, h4⟩ := ih _ _ h
            have hrows := h2 _ rfl
            refine ⟨by rw [h1]; simp, ?_, by simp, ?_⟩
            · intro x hx
              subst hx
              have : x = l.length := by simpa using hn
              rw [this, hrows]
            · intro k
              constructor
              · intro hk
                by_cases hks : k ∈ ks
                · exact (h4 k).1 hks
                · have hka : k = a := by simpa [hks] using hk
                  subst hka
                  refine ⟨v, l, u, hv, (columnOf_iff v l).1 hl, hrows.symm, hu, ?_⟩
                  rw [(h4 k).2 hks]
                  simp only [Dict.at, mapGet_set, if_true]
              · intro hk
                simp only [List.mem_cons, not_or] at hk
                rw [(h4 k).2 hk.2]
                simp only [Dict.at, mapGet_set, Ne.symm hk.1, if_false]

theorem transLoop_ok (env : TabEnv K T A) (d : Dict K (TV A)) (ks : List K) (n : Option Nat) (t : Tab K (Col T A)) (n' : Nat)
    (hn : ∀ x, n = some x → x = n')
    (h : ∀ k ∈ ks, ∃ v l, d.at k = some v ∧ AsColumn v l ∧ l.length = n' ∧ (env.uni l).isSome = true) :
    ∃ t', transLoop env d ks n t = .ok t' := by
  induction ks generalizing n t with
  | nil => exact ⟨_, rfl⟩
  | cons a ks ih =>
    obtain ⟨v, l, hv, hl, hlen, hu⟩ := h a (by simp)
    obtain ⟨u, hu⟩ := Option.isSome_iff_exists.1 hu
    have hcond : ¬ (n.isSome ∧ n ≠ some l.length) := by
      rintro ⟨h1, h2⟩
      obtain ⟨x, rfl⟩ := Option.isSome_iff_exists.1 h1
      exact h2 (by rw [hn x rfl, hlen])
    simp only [transLoop, hv, (columnOf_iff v l).2 hl, hu, if_neg hcond]
    exact ih _ _ (fun x hx => by cases hx; exact hlen) (fun k hk => h k (by simp [hk]))

/-- **C64.** ⍉D for a dictionary is a proper table with the same keys in the same order; each column has the elements of the value
(a scalar gives one cell) brought to a common type. -/
theorem C64_flip (env : TabEnv K T A) (hU : UniLen env) (d : Dict K (TV A)) (hd : GoodDict d) (t : Tab K (Col T A))
    (h : transposeObject env d = .ok t) :
    GoodTable t ∧ t.dict.keys = d.keys ∧
      ∀ k v, d.at k = some v → ∃ l u, AsColumn v l ∧ env.uni l = some u ∧ t.dict.at k = some u ∧ l.length = t.rows := by
  obtain ⟨h1, _, _, h4⟩ := transLoop_sound env d d.keys none _ t h
  have h1' : t.dict.keys = d.keys := by simpa [Dict.empty] using h1
  have hat : ∀ k v, d.at k = some v → ∃ l u, AsColumn v l ∧ env.uni l = some u ∧ t.dict.at k = some u ∧ l.length = t.rows := by
    intro k v hv
    obtain ⟨v', l, u, e1, e2, e3, e4, e5⟩ := (h4 k).1 ((hd.mem k).2 (by rw [hv]; rfl))
    rw [hv] at e1; cases e1
    exact ⟨l, u, e2, e4, e5, e3⟩
  have hno : ∀ k, k ∉ d.keys → t.dict.at k = none := fun k hk => (h4 k).2 hk
  refine ⟨⟨h1' ▸ hd.nodup, ?_, ?_⟩, h1', hat⟩
  · intro k
    rw [h1']
    constructor
    · intro hk
      obtain ⟨v, hv⟩ := Option.isSome_iff_exists.1 ((hd.mem k).1 hk)
      obtain ⟨_, u, _, _, e, _⟩ := hat k v hv
      rw [e]; rfl
    · intro hk
      by_cases hk' : k ∈ d.keys
      · exact hk'
      · rw [hno k hk'] at hk; cases hk
  · intro k c hc
    by_cases hk : k ∈ d.keys
    · obtain ⟨v, hv⟩ := Option.isSome_iff_exists.1 ((hd.mem k).1 hk)
      obtain ⟨l, u, _, e2, e3, e4⟩ := hat k v hv
      rw [hc] at e3; cases e3
      rw [hU l c e2, e4]
    · rw [hno k hk] at hc; cases hc

/-- **C64.** ⍉D succeeds exactly if each value is a scalar or a vector whose elements can be brought to one type, all of the same
length. -/
theorem C64_flip_iff (env : TabEnv K T A) (d : Dict K (TV A)) (hd : GoodDict d) :
    (∃ t, transposeObject env d = .ok t) ↔
      ∃ n, ∀ k v, d.at k = some v → ∃ l, AsColumn v l ∧ l.length = n ∧ (env.uni l).isSome = true := by
  constructor
  · rintro ⟨t, h⟩
    obtain ⟨_, _, _, h4⟩ := transLoop_sound env d d.keys none _ t h
    refine ⟨t.rows, ?_⟩
    intro k v hv
    obtain ⟨v', l, u, e1, e2, e3, e4, _⟩ := (h4 k).1 ((hd.mem k).2 (by rw [hv]; rfl))
    rw [hv] at e1; cases e1
    exact ⟨l, e2, e3, by rw [e4]; rfl⟩
  · rintro ⟨n, h⟩
    refine transLoop_ok env d d.keys none _ n (by simp) ?_
    intro k hk
    obtain ⟨v, hv⟩ := Option.isSome_iff_exists.1 ((hd.mem k).1 hk)
    obtain ⟨l, h1, h2, h3⟩ := h k v hv
    exact ⟨v, l, hv, h1, h2, h3⟩

theorem mapGet_map {V W : Type} (f : V → W) (d : List (K × V)) (k : K) : mapGet (d.map (fun e => (e.1, f e.2))) k = (mapGet d k).map f := by
  induction d with
  | nil => rfl
  | cons e d ih =>
    obtain ⟨k', v⟩ := e
    simp only [List.map_cons, mapGet, ih]
    split <;> rfl

/-- **C64.** ⍉T is the dictionary of the columns: the same keys in the same order. -/
theorem C64_flip_table (t : Tab K (Col T A)) (ht : GoodTable t) :
    GoodDict (transposeTable t) ∧ (transposeTable t).keys = t.dict.keys ∧
      ∀ k, (transposeTable t).at k = (t.dict.at k).map (fun c => .vec c.cells) := by
  have hat : ∀ k, (transposeTable t).at k = (t.dict.at k).map (fun c => .vec c.cells) := fun k =>
    mapGet_map (fun c : Col T A => TV.vec c.cells) t.dict.map k
  refine ⟨⟨ht.nodup, fun k => ?_⟩, rfl, hat⟩
  rw [hat, Option.isSome_map]
  exact ht.mem k

/-- **C64.** ⍉⍉T has the same cells, columns and rows as T: the columns of a table are of one type, so that `Unify` gives them back. -/
theorem C64_roundtrip (env : TabEnv K T A) (hU : UniLen env) (t : Tab K (Col T A)) (ht : GoodTable t) (hk : t.dict.keys ≠ [])
    (hu : ∀ k c, t.dict.at k = some c → env.uni c.cells = some c) :
    ∃ t', transposeObject env (transposeTable t) = .ok t' ∧ t'.dict.keys = t.dict.keys ∧ t'.rows = t.rows ∧ ∀ k, t'.dict.at k = t.dict.at k := by
  obtain ⟨hd, hkeys, hat⟩ := C64_flip_table t ht
  have hex : ∃ t', transposeObject env (transposeTable t) = .ok t' := by
    rw [C64_flip_iff env _ hd]
    refine ⟨t.rows, ?_⟩
    intro k v hv
    rw [hat] at hv
    obtain ⟨c, hc, rfl⟩ := Option.map_eq_some_iff.1 hv
    exact ⟨_, .vec _, ht.rows k c hc, by rw [hu k c hc]; rfl⟩
  obtain ⟨t', h⟩ := hex
  obtain ⟨hg, h1, h2⟩ := C64_flip env hU _ hd t' h
  have hcell : ∀ k c, t.dict.at k = some c → t'.dict.at k = some c ∧ t'.rows = t.rows := by
    intro k c hc
    obtain ⟨l, u, hl, e1, e2, e3⟩ := h2 k (.vec c.cells) (by rw [hat, hc]; rfl)
    cases hl
    rw [hu k c hc] at e1; cases e1
    exact ⟨e2, by rw [← e3]; exact ht.rows k c hc⟩
  refine ⟨t', h, h1.trans hkeys, ?_, ?_⟩
  · obtain ⟨k, hk⟩ := List.exists_mem_of_ne_nil _ hk
    obtain ⟨c, hc⟩ := Option.isSome_iff_exists.1 ((ht.mem k).1 hk)
    exact (hcell k c hc).2
  · intro k
    cases hc : t.dict.at k with
    | some c => exact (hcell k c hc).1
    | none =>
      have : k ∉ t'.dict.keys := by rw [h1, hkeys, ht.mem, hc]; simp
      rw [hg.mem] at this
      cases h' : t'.dict.at k with
      | none => rfl
      | some _ => rw [h'] at this; simp at this

/-! ### C65: indexing -/

/-- the rows (counted from 0) that a row index stands for: an elided index for all rows, otherwise the numbers less ⎕IO -/
inductive RowsOf (env : TabEnv K T A) (origin : Int) (n : Nat) : TSpec K F → List Nat → Prop
  | all : RowsOf env origin n .empty (List.range n)
  | one (k : K) (i : Nat) : env.toIndex k = some ((i : Int) + origin) → i < n → RowsOf env origin n (.one k) [i]
  | vec (ints : Bool) (ks : List K) (is : List Nat) : (ks ≠ [] ∨ ints = true) →
      List.Forall₂ (fun (k : K) (i : Nat) => env.toIndex k = some ((i : Int) + origin) ∧ i < n) ks is → RowsOf env origin n (.vec ints ks) is

/-- not a string, nor an array of strings (an array without elements counts as one) -/
inductive NoNames (env : TabEnv K T A) : TSpec K F → Prop
  | one (k : K) : env.isStr k = false → NoNames env (.one k)
  | vec (ints : Bool) (ks : List K) (k : K) : k ∈ ks → env.isStr k = false → NoNames env (.vec ints ks)

/-- the rows and columns that the indexes of a table stand for -/
inductive Addresses (env : TabEnv K T A) (origin : Int) (t : Tab K (Col T A)) : List (TSpec K F) → List Nat → List K → Prop
  | name (k : K) : env.isStr k = true → k ∈ t.dict.keys → Addresses env origin t [.one k] (List.range t.rows) [k]
  | names (b : Bool) (ks : List K) : ks ≠ [] → (∀ k ∈ ks, env.isStr k = true ∧ k ∈ t.dict.keys) → Addresses env origin t [.vec b ks] (List.range t.rows) ks
  | rows (s : TSpec K F) (is : List Nat) : RowsOf env origin t.rows s is → NoNames env s → Addresses env origin t [s] is t.dict.keys
  | allcols (s : TSpec K F) (is : List Nat) : RowsOf env origin t.rows s is → Addresses env origin t [s, .empty] is t.dict.keys
  | col (s : TSpec K F) (is : List Nat) (k : K) : RowsOf env origin t.rows s is → k ∈ t.dict.keys → Addresses env origin t [s, .one k] is [k]
  | cols (s : TSpec K F) (is : List Nat) (b : Bool) (ks : List K) : RowsOf env origin t.rows s is → (∀ k ∈ ks, k ∈ t.dict.keys) →
      Addresses env origin t [s, .vec b ks] is ks

/-- `d` has the columns `ks` of the table, each of the same type with the cells of the rows `rs` in this order -/
def PartOf (t : Tab K (Col T A)) (rs : List Nat) (ks : List K) (d : Dict K (Col T A)) : Prop :=
  d.keys = ks ∧ (∀ k, k ∉ ks → d.at k = none) ∧
  ∀ k ∈ ks, ∃ c c', t.dict.at k = some c ∧ d.at k = some c' ∧ c'.ty = c.ty ∧ c'.cells.length = rs.length ∧
    ∀ (j i : Nat), rs[j]? = some i → i < c.cells.length ∧ c'.cells[j]? = c.cells[i]?

/-- an array or a function among the indexes -/
def TSpec.isMany : TSpec K F → Prop
  | .empty => False
  | .one _ => False
  | .vec _ _ => True
  | .fn _ => True

/-- The result of an index: a table, if an index is an array or a function.  Otherwise, a single cell is returned as it is, a single
column as a vector, and a single row as a dictionary. -/
inductive Selected (t : Tab K (Col T A)) (many : Prop) (rs : List Nat) (ks : List K) : TabVal K T A → Prop
  | cell (i : Nat) (k : K) (a : A) : ¬ many → rs = [i] → ks = [k] → t.cell k i = some a → Selected t many rs ks (.cell a)
  | col (k : K) (c : Col T A) : ¬ many → rs.length ≠ 1 → rs = List.range t.rows → ks = [k] → t.dict.at k = some c → Selected t many rs ks (.col c)
  | dict (d : Dict K (Col T A)) : ¬ many → rs.length = 1 → ks.length ≠ 1 → PartOf t rs ks d → Selected t many rs ks (.dict d)
  | tab (d : Dict K (Col T A)) : many ∨ (rs.length ≠ 1 ∧ ks.length ≠ 1) → PartOf t rs ks d → Selected t many rs ks (.tab ⟨d, rs.length⟩)

theorem colMap_get (keys : List K) (i : Nat) (mp : List (K × Nat)) (k : K) :
    (k ∈ keys → ∃ p, mapGet (colMap keys i mp) k = some (i + p) ∧ keys[p]? = some k) ∧
    (k ∉ keys → mapGet (colMap keys i mp) k = mapGet mp k) := by
  induction keys generalizing i mp with
  | nil => exact ⟨by simp, fun _ => rfl⟩
  | cons a keys ih =>
    simp only [colMap]
    obtain ⟨h1, h2⟩ := ih (i + 1) (mapSet mp a i)
    constructor
    · intro hk
      by_cases hk' : k ∈ keys
      · obtain ⟨p, e1, e2⟩ := h1 hk'
        exact ⟨p + 1, by rw [e1]; congr 1; omega, by simpa using e2⟩
      · have : k = a := by simpa [hk'] using hk
        subst this
        exact ⟨0, by rw [h2 hk', mapGet_set]; simp, by simp⟩
    · intro hk
      simp only [List.mem_cons, not_or] at hk
      rw [h2 hk.2, mapGet_set, if_neg (Ne.symm hk.1)]

theorem colPositions_ok (keys ks : List K) (h : ∀ k ∈ ks, k ∈ keys) :
    ∃ cs, colPositions keys ks = .ok cs ∧ List.Forall₂ (fun c k => keys[c]? = some k) cs ks := by
  unfold colPositions
  induction ks with
  | nil => exact ⟨[], rfl, .nil⟩
  | cons k ks ih =>
    obtain ⟨cs, e, hf⟩ := ih (fun k hk => h k (by simp [hk]))
    obtain ⟨p, e1, e2⟩ := (colMap_get keys 0 [] k).1 (h k (by simp))
    refine ⟨p :: cs, ?_, .cons e2 hf⟩
    rw [List.mapM_cons, e1, e]
    simp only [orErr, bind, Except.bind, pure, Except.pure, Nat.zero_add]

theorem colPositions_unknown (keys ks : List K) (h : ∃ k ∈ ks, k ∉ keys) : colPositions keys ks = .error .err := by
  unfold colPositions
  induction ks with
  | nil => simp at h
  | cons k ks ih =>
    rw [List.mapM_cons]
    by_cases hk : k ∈ keys
    · obtain ⟨p, e1, _⟩ := (colMap_get keys 0 [] k).1 hk
      rw [e1, ih (by obtain ⟨k', h1, h2⟩ := h; rcases List.mem_cons.1 h1 with rfl | h1
                     · exact absurd hk h2
                     · exact ⟨k', h1, h2⟩)]
      rfl
    · rw [(colMap_get keys 0 [] k).2 hk]
      rfl

theorem range_positions (keys : List K) : List.Forall₂ (fun c k => keys[c]? = some k) (List.range keys.length) keys := by
  rw [List.forall₂_iff_get]
  refine ⟨by simp, ?_⟩
  intro i h1 h2
  simp

/-- the columns that an index stands for are found -/
theorem tableCols_ok (env : TabEnv K T A) (origin : Int) (t : Tab K (Col T A)) (spec : List (TSpec K F)) (rs : List Nat) (ks : List K)
    (h : Addresses env origin t spec rs ks) :
    ∃ cs s, tableCols env t.dict.keys spec = .ok (cs, s) ∧ List.Forall₂ (fun c k => t.dict.keys[c]? = some k) cs ks ∧ RowsOf env origin t.rows s rs := by
  cases h with
  | name k hs hk =>
    obtain ⟨cs, e, hf⟩ := colPositions_ok t.dict.keys [k] (by simpa using hk)
    refine ⟨cs, .empty, ?_, hf, .all⟩
    simp only [tableCols, TSpec.strings, hs, if_true, e, Except.map]
  | names b ks hne hs =>
    obtain ⟨cs, e, hf⟩ := colPositions_ok t.dict.keys ks (fun k hk => (hs k hk).2)
    refine ⟨cs, .empty, ?_, hf, .all⟩
    have : ks.all env.isStr = true := List.all_eq_true.2 (fun k hk => (hs k hk).1)
    simp only [tableCols, TSpec.strings, this, if_true, e, Except.map]
  | rows s is hr hn =>
    refine ⟨_, s, ?_, range_positions _, hr⟩
    cases hn with
    | one k hk => simp only [tableCols, TSpec.strings, hk, Bool.false_eq_true, if_false]
    | vec b ks k hk hs =>
      have : ks.all env.isStr = false := by
        cases ha : ks.all env.isStr with
        | false => rfl
        | true => rw [List.all_eq_true.1 ha k hk] at hs; cases hs
      simp only [tableCols, TSpec.strings, this, Bool.false_eq_true, if_false]
  | allcols s is hr => exact ⟨_, s, rfl, range_positions _, hr⟩
  | col s is k hr hk =>
    obtain ⟨cs, e, hf⟩ := colPositions_ok t.dict.keys [k] (by simpa using hk)
    refine ⟨cs, s, ?_, hf, hr⟩
    simp only [tableCols, e, Except.map]
  | cols s is b ks hr hk =>
    obtain ⟨cs, e, hf⟩ := colPositions_ok t.dict.keys ks hk
    refine ⟨cs, s, ?_, hf, hr⟩
    simp only [tableCols, e, Except.map]

theorem checkRows_ok (origin : Int) (n : Nat) (rs : List Nat) (h : ∀ i ∈ rs, i < n) :
    checkRows origin n (rs.map (fun (i : Nat) => (i : Int) + origin)) = .ok rs := by
  unfold checkRows
  induction rs with
  | nil => rfl
  | cons i rs ih =>
    have hi : ¬ ((i : Int) + origin - origin < 0 ∨ (n : Int) ≤ (i : Int) + origin - origin) := by
      have := h i (by simp)
      omega
    rw [List.map_cons, List.mapM_cons, if_neg hi, ih (fun j hj => h j (by simp [hj]))]
    simp only [bind, Except.bind, pure, Except.pure]
    congr 2
    omega

theorem RowsOf.lt {env : TabEnv K T A} {origin : Int} {n : Nat} {s : TSpec K F} {rs : List Nat} (h : RowsOf env origin n s rs) : ∀ i ∈ rs, i < n := by
  cases h with
  | all => intro i hi; simpa using hi
  | one k i _ hi => intro j hj; simp only [List.mem_singleton] at hj; omega
  | vec b ks is hne hf =>
    clear hne
    induction hf with
    | nil => simp
    | cons h1 _ ih =>
      intro i hi
      rcases List.mem_cons.1 hi with rfl | hi
      · exact h1.2
      · exact ih i hi

theorem tableRows_ok (env : TabEnv K T A) (origin : Int) (n : Nat) (select : F → ExceptT Fail m (Option (List Bool))) (s : TSpec K F) (rs : List Nat)
    (h : RowsOf env origin n s rs) : tableRows env origin n select s = pure (rs.map (fun (i : Nat) => (i : Int) + origin)) := by
  cases h with
  | all => rfl
  | one k i hk _ => simp only [tableRows, hk, List.map_cons, List.map_nil]
  | vec b ks is hne hf =>
    have hc : ¬ (ks = [] ∧ b = false) := by
      rintro ⟨h1, h2⟩
      rcases hne with h | h
      · exact h h1
      · rw [h] at h2; cases h2
    have hm : ks.mapM env.toIndex = some (rs.map (fun (i : Nat) => (i : Int) + origin)) := by
      clear hne hc
      induction hf with
      | nil => rfl
      | cons h1 _ ih => rw [List.mapM_cons, h1.1, ih]; rfl
    simp only [tableRows, if_neg hc, hm]

theorem subCol_ok (c : Col T A) (rs : List Nat) (h : ∀ i ∈ rs, i < c.cells.length) :
    ∃ c', subCol c rs = .ok c' ∧ c'.ty = c.ty ∧ c'.cells.length = rs.length ∧ ∀ (j i : Nat), rs[j]? = some i → i < c.cells.length ∧ c'.cells[j]? = c.cells[i]? := by
  obtain ⟨vs, e, hl, hv⟩ := mapM_pure_ex (M := Except Fail) (l := rs) (g := sliceAt c.cells) (P := fun i v => c.cells[i]? = some v)
    (fun i hi => ⟨c.cells[i]'(h i hi), sliceAt_ok (h i hi), List.getElem?_eq_getElem _⟩)
  refine ⟨⟨c.ty, vs⟩, ?_, rfl, hl, ?_⟩
  · simp only [subCol, e]; rfl
  · intro j i hj
    obtain ⟨v, e1, _, e2⟩ := hv j i hj
    exact ⟨h i (List.mem_of_getElem? hj), e1.trans e2.symm⟩

theorem colAt_ok {t : Tab K (Col T A)} {k : K} {c : Col T A} (h : t.dict.at k = some c) : colAt t k = .ok c := by
  simp only [colAt, h]

theorem subTable_ok (t : Tab K (Col T A)) (ht : GoodTable t) (rs cs : List Nat) (ks : List K) (d : Dict K (Col T A))
    (hr : ∀ i ∈ rs, i < t.rows) (h : List.Forall₂ (fun c k => t.dict.keys[c]? = some k) cs ks) :
    ∃ d', subTable t rs cs d = .ok d' ∧ d'.keys = d.keys ++ ks ∧ (∀ k, k ∉ ks → d'.at k = d.at k) ∧
      ∀ k ∈ ks, ∃ c c', t.dict.at k = some c ∧ d'.at k = some c' ∧ c'.ty = c.ty ∧ c'.cells.length = rs.length ∧
        ∀ (j i : Nat), rs[j]? = some i → i < c.cells.length ∧ c'.cells[j]? = c.cells[i]? := by
  induction h generalizing d with
  | nil => exact ⟨d, rfl, by simp, fun _ _ => rfl, by simp⟩
  | @cons c k cs ks hck _ ih =>
    have hk : k ∈ t.dict.keys := List.mem_of_getElem? hck
    obtain ⟨col, hcol⟩ := Option.isSome_iff_exists.1 ((ht.mem k).1 hk)
    obtain ⟨c', e1, e2, e3, e4⟩ := subCol_ok col rs (by rw [ht.rows k col hcol]; exact hr)
    obtain ⟨d', f1, f2, f3, f4⟩ := ih ⟨d.keys ++ [k], mapSet d.map k c'⟩
    refine ⟨d', ?_, by rw [f2]; simp, ?_, ?_⟩
    · simp only [subTable, sliceAt_eq_ok.2 hck, colAt_ok hcol, e1, bind, Except.bind]
      exact f1
    · intro k' hk'
      simp only [List.mem_cons, not_or] at hk'
      rw [f3 k' hk'.2]
      simp only [Dict.at, mapGet_set, Ne.symm hk'.1, if_false]
    · intro k' hk'
      by_cases hks : k' ∈ ks
      · exact f4 k' hks
      · have : k' = k := by simpa [hks] using hk'
        subst this
        refine ⟨col, c', hcol, ?_, e2, e3, e4⟩
        rw [f3 k' hks]
        simp only [Dict.at, mapGet_set, if_true]

theorem part_ok (t : Tab K (Col T A)) (ht : GoodTable t) (rs cs : List Nat) (ks : List K)
    (hr : ∀ i ∈ rs, i < t.rows) (h : List.Forall₂ (fun c k => t.dict.keys[c]? = some k) cs ks) :
    ∃ d, subTable t rs cs Dict.empty = .ok d ∧ PartOf t rs ks d := by
  obtain ⟨d, h1, h2, h3, h4⟩ := subTable_ok t ht rs cs ks Dict.empty hr h
  exact ⟨d, h1, by simpa [Dict.empty] using h2, h3, h4⟩

theorem keepsScalar_iff (s : TSpec K F) : s.keepsScalar = true ↔ ¬ s.isMany := by
  cases s <;> simp [TSpec.keepsScalar, TSpec.isMany]

theorem keeps_many (spec : List (TSpec K F)) : spec.all TSpec.keepsScalar = true ↔ ¬ ∃ s ∈ spec, s.isMany := by
  rw [List.all_eq_true]
  constructor
  · rintro h ⟨s, h1, h2⟩; exact (keepsScalar_iff s).1 (h s h1) h2
  · intro h s hs; exact (keepsScalar_iff s).2 (fun hm => h ⟨s, hs, hm⟩)

theorem tableGet_ok (t : Tab K (Col T A)) (ht : GoodTable t) (conv : Bool) (many : Prop) (hmany : conv = true ↔ ¬ many) (rs cs : List Nat) (ks : List K)
    (hr : ∀ i ∈ rs, i < t.rows) (h : List.Forall₂ (fun c k => t.dict.keys[c]? = some k) cs ks)
    (hall : conv = true → rs = List.range t.rows ∨ rs.length = 1) :
    ∃ v, tableGet t conv rs cs = .ok v ∧ Selected t many rs ks v := by
  obtain ⟨d, hd, hp⟩ := part_ok t ht rs cs ks hr h
  have hlen : cs.length = ks.length := h.length_eq
  cases conv with
  | false =>
    have : tableGet t false rs cs = .ok (.tab ⟨d, rs.length⟩) := by
      simp only [tableGet, hd, bind, Except.bind, pure, Except.pure]
    exact ⟨_, this, .tab d (.inl (Classical.byContradiction fun hm => by simpa using hmany.2 hm)) hp⟩
  | true =>
    have hm := hmany.1 rfl
    have single : ∀ c, cs = [c] → ∃ k col, ks = [k] ∧ t.dict.keys[c]? = some k ∧ t.dict.at k = some col := by
      rintro c rfl
      cases h with
      | cons h1 h2 =>
        cases h2
        obtain ⟨col, hcol⟩ := Option.isSome_iff_exists.1 ((ht.mem _).1 (List.mem_of_getElem? h1))
        exact ⟨_, col, rfl, h1, hcol⟩
    match rs, cs, hr, hall, hd, hp, hlen, single with
    | [r], [c], hr, _, _, _, _, single =>
      obtain ⟨k, col, rfl, h1, h2⟩ := single c rfl
      have hr : r < col.cells.length := by rw [ht.rows k col h2]; exact hr r (by simp)
      refine ⟨.cell (col.cells[r]'hr), ?_, .cell r k _ hm rfl rfl ?_⟩
      · simp only [tableGet, sliceAt_eq_ok.2 h1, colAt_ok h2, sliceAt_ok hr, bind, Except.bind, pure, Except.pure]
      · simp [Tab.cell, h2, hr]
    | [], [c], _, hall, _, _, _, single =>
      obtain ⟨k, col, rfl, h1, h2⟩ := single c rfl
      refine ⟨.col col, ?_, .col k col hm (by simp) ((hall rfl).resolve_right (by simp)) rfl h2⟩
      simp only [tableGet, sliceAt_eq_ok.2 h1, colAt_ok h2, bind, Except.bind, pure, Except.pure]
    | r1 :: r2 :: rs, [c], _, hall, _, _, _, single =>
      obtain ⟨k, col, rfl, h1, h2⟩ := single c rfl
      refine ⟨.col col, ?_, .col k col hm (by simp) ((hall rfl).resolve_right (by simp)) rfl h2⟩
      simp only [tableGet, sliceAt_eq_ok.2 h1, colAt_ok h2, bind, Except.bind, pure, Except.pure]
    | [r], [], _, _, hd, hp, hlen, _ =>
      refine ⟨.dict d, ?_, .dict d hm rfl (by rw [← hlen]; simp) hp⟩
      simp only [tableGet, hd, bind, Except.bind, pure, Except.pure]
    | [r], c1 :: c2 :: cs, _, _, hd, hp, hlen, _ =>
      refine ⟨.dict d, ?_, .dict d hm rfl (by rw [← hlen]; simp) hp⟩
      simp only [tableGet, hd, bind, Except.bind, pure, Except.pure]
    | [], [], _, _, hd, hp, hlen, _ =>
      refine ⟨.tab ⟨d, 0⟩, ?_, .tab d (.inr ⟨by simp, by rw [← hlen]; simp⟩) hp⟩
      simp only [tableGet, hd, bind, Except.bind, pure, Except.pure, List.length_nil]
    | [], c1 :: c2 :: cs, _, _, hd, hp, hlen, _ =>
      refine ⟨.tab ⟨d, 0⟩, ?_, .tab d (.inr ⟨by simp, by rw [← hlen]; simp⟩) hp⟩
      simp only [tableGet, hd, bind, Except.bind, pure, Except.pure, List.length_nil]
    | r1 :: r2 :: rs, [], _, _, hd, hp, hlen, _ =>
      refine ⟨.tab ⟨d, (r1 :: r2 :: rs).length⟩, ?_, .tab d (.inr ⟨by simp, by rw [← hlen]; simp⟩) hp⟩
      simp only [tableGet, hd, bind, Except.bind, pure, Except.pure]
    | r1 :: r2 :: rs, c1 :: c2 :: cs, _, _, hd, hp, hlen, _ =>
      refine ⟨.tab ⟨d, (r1 :: r2 :: rs).length⟩, ?_, .tab d (.inr ⟨by simp, by rw [← hlen]; simp⟩) hp⟩
      simp only [tableGet, hd, bind, Except.bind, pure, Except.pure]

theorem Addresses.all {env : TabEnv K T A} {origin : Int} {t : Tab K (Col T A)} {spec : List (TSpec K F)} {rs : List Nat} {ks : List K}
    (h : Addresses env origin t spec rs ks) (hm : ¬ ∃ s ∈ spec, s.isMany) : rs = List.range t.rows ∨ rs.length = 1 := by
  have key : ∀ s, s ∈ spec → RowsOf env origin t.rows s rs → rs = List.range t.rows ∨ rs.length = 1 := by
    intro s hs hr
    cases hr with
    | all => exact .inl rfl
    | one k i _ _ => exact .inr rfl
    | vec b ks is _ _ => exact absurd ⟨_, hs, trivial⟩ hm
  cases h with
  | name => exact .inl rfl
  | names => exact .inl rfl
  | rows s is hr _ => exact key s (by simp) hr
  | allcols s is hr => exact key s (by simp) hr
  | col s is k hr _ => exact key s (by simp) hr
  | cols s is b ks hr _ => exact key s (by simp) hr

/-- **C65.** T[I], T[I;C]: the result has exactly the cells of the selected rows and columns, in the order of the indexes, and is a cell,
a column, a dictionary or a table depending on the indexes. -/
theorem C65_index (env : TabEnv K T A) (origin : Int) (select : F → ExceptT Fail m (Option (List Bool))) (t : Tab K (Col T A)) (ht : GoodTable t)
    (spec : List (TSpec K F)) (rs : List Nat) (ks : List K) (h : Addresses env origin t spec rs ks) :
    ∃ v, tableIndex env origin select t spec = pure v ∧ Selected t (∃ s ∈ spec, s.isMany) rs ks v := by
  obtain ⟨cs, s, e, hf, hr⟩ := tableCols_ok env origin t spec rs ks h
  obtain ⟨v, hv, hsel⟩ := tableGet_ok t ht _ _ (keeps_many spec) rs cs ks hr.lt hf (fun hc => h.all ((keeps_many spec).1 hc))
  refine ⟨v, ?_, hsel⟩
  simp only [tableIndex, tableSelection, e, ofRes_ok, pure_bind, tableRows_ok env origin t.rows select s rs hr, checkRows_ok origin t.rows rs hr.lt, hv]

/-- a row index with a number outside of the table -/
inductive RowsOutside (env : TabEnv K T A) (origin : Int) (n : Nat) : TSpec K F → Prop
  | one (k : K) (x : Int) : env.toIndex k = some x → (x < origin ∨ (n : Int) + origin ≤ x) → RowsOutside env origin n (.one k)
  | vec (ints : Bool) (ks : List K) (xs : List Int) (x : Int) : ks.mapM env.toIndex = some xs → x ∈ xs → (x < origin ∨ (n : Int) + origin ≤ x) →
      RowsOutside env origin n (.vec ints ks)

theorem checkRows_outside (origin : Int) (n : Nat) (xs : List Int) (x : Int) (hx : x ∈ xs) (h : x < origin ∨ (n : Int) + origin ≤ x) :
    checkRows origin n xs = .error .err := by
  unfold checkRows
  induction xs with
  | nil => simp at hx
  | cons y ys ih =>
    rw [List.mapM_cons]
    by_cases hy : y - origin < 0 ∨ (n : Int) ≤ y - origin
    · rw [if_pos hy]; rfl
    · rw [if_neg hy]
      rcases List.mem_cons.1 hx with rfl | hx
      · omega
      · rw [ih hx]; rfl

/-- **C65.** A row number outside of the table is an error, whatever the other rows are. -/
theorem C65_outside (env : TabEnv K T A) (origin : Int) (select : F → ExceptT Fail m (Option (List Bool))) (t : Tab K (Col T A))
    (s : TSpec K F) (h : RowsOutside env origin t.rows s) (ks : List K) (b : Bool) (hk : ∀ k ∈ ks, k ∈ t.dict.keys) :
    (NoNames env s → tableIndex env origin select t [s] = throw .err) ∧
    tableIndex env origin select t [s, .empty] = throw .err ∧
    tableIndex env origin select t [s, .vec b ks] = throw .err ∧
    (∀ k ∈ ks, tableIndex env origin select t [s, .one k] = throw .err) := by
  have key : ∀ spec cs, tableCols env t.dict.keys spec = .ok (cs, s) → tableIndex env origin select t spec = throw .err := by
    intro spec cs e
    simp only [tableIndex, tableSelection, e, ofRes_ok, pure_bind]
    cases h with
    | one k x hx ho =>
      simp only [tableRows, hx, pure_bind, checkRows_outside origin t.rows [x] x (by simp) ho, ofRes_bind_error, throw_bind']
    | vec ints ks xs x hm hx ho =>
      have hne : ¬ (ks = [] ∧ ints = false) := by
        rintro ⟨rfl, _⟩
        simp only [List.mapM_nil, pure, Option.some.injEq] at hm
        rw [← hm] at hx; cases hx
      simp only [tableRows, if_neg hne, hm, pure_bind, checkRows_outside origin t.rows xs x hx ho, ofRes_bind_error, throw_bind']
  refine ⟨?_, key _ _ rfl, ?_, ?_⟩
  · intro hn
    refine key _ (List.range t.dict.keys.length) ?_
    cases hn with
    | one k hk => simp only [tableCols, TSpec.strings, hk, Bool.false_eq_true, if_false]
    | vec b ks k hk hs =>
      have : ks.all env.isStr = false := by
        cases ha : ks.all env.isStr with
        | false => rfl
        | true => rw [List.all_eq_true.1 ha k hk] at hs; cases hs
      simp only [tableCols, TSpec.strings, this, Bool.false_eq_true, if_false]
  · obtain ⟨cs, e, _⟩ := colPositions_ok t.dict.keys ks hk
    exact key _ cs (by simp only [tableCols, e, Except.map])
  · intro k hk'
    obtain ⟨cs, e, _⟩ := colPositions_ok t.dict.keys [k] (by simpa using hk k hk')
    exact key _ cs (by simp only [tableCols, e, Except.map])

/-- **C65.** A column that is not in the table is an error, and no function among the indexes is called. -/
theorem C65_unknown_column (env : TabEnv K T A) (origin : Int) (select : F → ExceptT Fail m (Option (List Bool))) (t : Tab K (Col T A))
    (s : TSpec K F) (ks : List K) (b : Bool) (k : K) (hk : k ∈ ks) (hn : k ∉ t.dict.keys) :
    tableIndex env origin select t [s, .one k] = throw .err ∧ tableIndex env origin select t [s, .vec b ks] = throw .err ∧
    (env.isStr k = true → tableIndex env origin select t [.one k] = throw .err) ∧
    ((∀ k ∈ ks, env.isStr k = true) → tableIndex env origin select t [.vec b ks] = throw .err) := by
  have e1 := colPositions_unknown t.dict.keys [k] ⟨k, by simp, hn⟩
  have e2 := colPositions_unknown t.dict.keys ks ⟨k, hk, hn⟩
  refine ⟨?_, ?_, ?_, ?_⟩
  · simp only [tableIndex, tableSelection, tableCols, e1, Except.map, ofRes_bind_error, throw_bind']
  · simp only [tableIndex, tableSelection, tableCols, e2, Except.map, ofRes_bind_error, throw_bind']
  · intro h
    simp only [tableIndex, tableSelection, tableCols, TSpec.strings, h, if_true, e1, Except.map, ofRes_bind_error, throw_bind']
  · intro h
    have : ks.all env.isStr = true := List.all_eq_true.2 h
    simp only [tableIndex, tableSelection, tableCols, TSpec.strings, this, if_true, e2, Except.map, ofRes_bind_error, throw_bind']

/-- the positions where the vector is true -/
def trueAt (bs : List Bool) : List Nat := (List.range bs.length).filter (fun i => bs[i]? = some true)

theorem whereRows_eq (origin : Int) (bs : List Bool) (i : Nat) :
    whereRows origin bs i = (trueAt bs).map (fun (j : Nat) => ((i + j : Nat) : Int) + origin) := by
  induction bs generalizing i with
  | nil => rfl
  | cons b bs ih =>
    have hshift : trueAt (b :: bs) = (if b then [0] else []) ++ (trueAt bs).map (· + 1) := by
      unfold trueAt
      rw [List.length_cons, List.range_succ_eq_map, List.filter_cons]
      simp only [List.getElem?_cons_zero, Option.some.injEq]
      rw [List.filter_map]
      have : (fun j : Nat => decide ((b :: bs)[j]? = some true)) ∘ Nat.succ = fun j => decide (bs[j]? = some true) := by
        funext j; simp
      rw [this]
      cases b <;> simp
    rw [hshift]
    simp only [whereRows]
    rw [ih (i + 1)]
    cases b
    · simp only [Bool.false_eq_true, if_false, List.nil_append, List.map_map]
      apply List.map_congr_left
      intro j _
      simp only [Function.comp_apply]
      congr 2; omega
    · simp only [if_true, List.singleton_append, List.map_cons, Nat.add_zero, List.map_map]
      congr 1
      apply List.map_congr_left
      intro j _
      simp only [Function.comp_apply]
      congr 2; omega

/-- **C65.** T[{…};C]: the function is called once, before anything else; its value must be a boolean vector, and the result is the table
of the rows where it is true, in the order of the table. -/
theorem C65_function (env : TabEnv K T A) (origin : Int) (select : F → ExceptT Fail m (Option (List Bool))) (t : Tab K (Col T A)) (ht : GoodTable t)
    (f : F) (spec : List (TSpec K F)) (ks : List K)
    (hs : (spec = [.fn f] ∧ ks = t.dict.keys) ∨ (spec = [.fn f, .empty] ∧ ks = t.dict.keys) ∨ (∃ k, spec = [.fn f, .one k] ∧ ks = [k] ∧ k ∈ t.dict.keys) ∨
      (∃ b, spec = [.fn f, .vec b ks] ∧ ∀ k ∈ ks, k ∈ t.dict.keys)) :
    ∃ rest : Option (List Bool) → ExceptT Fail m (TabVal K T A), tableIndex env origin select t spec = select f >>= rest ∧
      rest none = throw .err ∧
      (∀ bs, bs ≠ [] → (∀ i ∈ trueAt bs, i < t.rows) → ∃ d, rest (some bs) = pure (.tab ⟨d, (trueAt bs).length⟩) ∧ PartOf t (trueAt bs) ks d) ∧
      (∀ bs, (∃ i ∈ trueAt bs, t.rows ≤ i) → rest (some bs) = throw .err) := by
  have hc : ∃ cs, tableCols env t.dict.keys spec = .ok (cs, .fn f) ∧ List.Forall₂ (fun c k => t.dict.keys[c]? = some k) cs ks ∧
      spec.all TSpec.keepsScalar = false := by
    rcases hs with ⟨rfl, rfl⟩ | ⟨rfl, rfl⟩ | ⟨k, rfl, rfl, hk⟩ | ⟨b, rfl, hk⟩
    · exact ⟨_, rfl, range_positions _, rfl⟩
    · exact ⟨_, rfl, range_positions _, rfl⟩
    · obtain ⟨cs, e, hf⟩ := colPositions_ok t.dict.keys [k] (by simpa using hk)
      exact ⟨cs, by simp only [tableCols, e, Except.map], hf, rfl⟩
    · obtain ⟨cs, e, hf⟩ := colPositions_ok t.dict.keys ks hk
      exact ⟨cs, by simp only [tableCols, e, Except.map], hf, rfl⟩
  obtain ⟨cs, e, hf, hconv⟩ := hc
  refine ⟨fun b => do
    let is ← (match b with
      | none => throw .err
      | some [] => throw .panic
      | some bs => pure (whereRows origin bs 0) : ExceptT Fail m (List Int))
    let r ← ofRes (checkRows origin t.rows is)
    ofRes (tableGet t false r cs), ?_, ?_, ?_, ?_⟩
  · simp only [tableIndex, tableSelection, e, ofRes_ok, pure_bind, tableRows, hconv, bind_assoc]
    rfl
  · exact throw_bind' _ _
  · intro bs hne hlt
    obtain ⟨d, hd, hp⟩ := part_ok t ht (trueAt bs) cs ks hlt hf
    refine ⟨d, ?_, hp⟩
    have hw : whereRows origin bs 0 = (trueAt bs).map (fun (j : Nat) => (j : Int) + origin) := by
      rw [whereRows_eq]; simp
    have hg : tableGet t false (trueAt bs) cs = .ok (.tab ⟨d, (trueAt bs).length⟩) := by
      simp only [tableGet, hd, bind, Except.bind, pure, Except.pure]
    match bs, hne with
    | b :: bs, _ => simp only [pure_bind, hw, checkRows_ok origin t.rows _ hlt, ofRes_ok, hg]
  · rintro bs ⟨i, hi, hge⟩
    have hw : whereRows origin bs 0 = (trueAt bs).map (fun (j : Nat) => (j : Int) + origin) := by
      rw [whereRows_eq]; simp
    match bs, hi, hw with
    | [], hi, _ => simp [trueAt] at hi
    | b :: bs, hi, hw =>
      have := checkRows_outside origin t.rows ((trueAt (b :: bs)).map (fun (j : Nat) => (j : Int) + origin)) ((i : Int) + origin)
        (List.mem_map.2 ⟨i, hi, rfl⟩) (.inr (by omega))
      simp only [pure_bind, hw, this, ofRes_bind_error]

/-- **C65.** T[] has a row for each row of the table and a column for each of its columns. -/
theorem C65_to_array (t : Tab K (Col T A)) (ht : GoodTable t) :
    ∃ l, table2array t = .ok l ∧ l.length = t.rows * t.dict.keys.length ∧
      ∀ (i j : Nat) (k : K), i < t.rows → t.dict.keys[j]? = some k → l[i * t.dict.keys.length + j]? = t.cell k i := by
  have row : ∀ i, i < t.rows → ∃ r, t.dict.keys.mapM (fun k => do let c ← colAt t k; sliceAt c.cells i) = (.ok r : Res (List A)) ∧
      (r.length = t.dict.keys.length ∧ ∀ (j : Nat) k, t.dict.keys[j]? = some k → r[j]? = t.cell k i) := by
    intro i hi
    obtain ⟨r, e, hl, hv⟩ := mapM_pure_ex (M := Except Fail) (l := t.dict.keys) (g := fun k => do let c ← colAt t k; sliceAt c.cells i)
      (P := fun k v => t.cell k i = some v) (by
        intro k hk
        obtain ⟨c, hc⟩ := Option.isSome_iff_exists.1 ((ht.mem k).1 hk)
        have hlt : i < c.cells.length := by rw [ht.rows k c hc]; exact hi
        refine ⟨c.cells[i], ?_, ?_⟩
        · rw [colAt_ok hc]; exact sliceAt_ok hlt
        · simp [Tab.cell, hc, hlt])
    refine ⟨r, e, hl, ?_⟩
    intro j k hk
    obtain ⟨v, e1, _, e2⟩ := hv j k hk
    rw [e1, e2]
  obtain ⟨rs, e, hl, hv⟩ := mapM_pure_ex (M := Except Fail) (l := List.range t.rows)
    (g := fun i => t.dict.keys.mapM (fun k => do let c ← colAt t k; sliceAt c.cells i))
    (P := fun i r => r.length = t.dict.keys.length ∧ ∀ (j : Nat) k, t.dict.keys[j]? = some k → r[j]? = t.cell k i)
    (fun i hi => row i (List.mem_range.1 hi))
  have hall : ∀ r ∈ rs, r.length = t.dict.keys.length := by
    intro r hr
    obtain ⟨i, hi⟩ := List.getElem?_of_mem hr
    have hlt : i < t.rows := by
      have := (List.getElem?_eq_some_iff.1 hi).1
      rw [hl] at this; simpa using this
    obtain ⟨v, e1, _, e2⟩ := hv i i (by simp [hlt])
    rw [hi] at e1; cases e1
    exact e2.1
  refine ⟨rs.flatten, ?_, ?_, ?_⟩
  · simp only [table2array, e]; rfl
  · rw [flatten_length' rs _ hall, hl, List.length_range]
  · intro i j k hi hk
    obtain ⟨v, e1, _, e2⟩ := hv i i (by simp [hi])
    have hj : j < t.dict.keys.length := (List.getElem?_eq_some_iff.1 hk).1
    rw [flatten_get rs _ hall i j hj, e1]
    exact e2.2 j k hk

/-- **C65 (counterexample).** An index vector without elements as the only index does not select zero rows: it counts as a vector of column
names, and the result has no columns, but all of the rows. -/
theorem C65_no_rows (env : TabEnv K T A) (origin : Int) (select : F → ExceptT Fail m (Option (List Bool))) (t : Tab K (Col T A)) (b : Bool) :
    tableIndex env origin select t [.vec b []] = pure (.tab ⟨⟨[], []⟩, t.rows⟩) := by
  have h : checkRows origin t.rows ((List.range t.rows).map (fun (i : Nat) => (i : Int) + origin)) = .ok (List.range t.rows) :=
    checkRows_ok origin t.rows _ (by simp)
  have e : tableCols env t.dict.keys [TSpec.vec b [] (F := F)] = .ok ([], .empty) := rfl
  simp only [tableIndex, tableSelection, e, ofRes_ok, pure_bind, tableRows, h]
  have hg : tableGet t ([TSpec.vec b [] (F := F) (K := K)].all TSpec.keepsScalar) (List.range t.rows) [] =
      .ok (.tab ⟨⟨[], []⟩, (List.range t.rows).length⟩) := rfl
  rw [hg, List.length_range]
  rfl

/-! ### Examples -/
namespace TabDemo

/-- keys and indexes: strings and numbers -/
inductive Atom
  | str (s : String)
  | num (n : Int)
deriving DecidableEq

def env : TabEnv Atom Unit Int where
  isStr := fun a => match a with | .str _ => true | .num _ => false
  toIndex := fun a => match a with | .str _ => none | .num n => some n
  uni := fun l => some ⟨(), l⟩
  uniArr := fun _ => some ()
  conv := fun _ a => some a

theorem env_len : UniLen env := by
  intro l u h
  cases h
  rfl

/-- `D←`a`b#(10 20 30;5 6 5;)` -/
def dict : Dict Atom (TV Int) := ⟨[.str "a", .str "b"], [(.str "a", .vec [10, 20, 30]), (.str "b", .vec [5, 6, 5])]⟩

theorem dict_good : GoodDict dict := by
  refine ⟨by decide, fun k => ?_⟩
  simp only [dict, Dict.at, mapGet, List.mem_cons, List.not_mem_nil, or_false]
  constructor
  · rintro (rfl | rfl) <;> rfl
  · intro h
    by_cases h1 : Atom.str "a" = k
    · exact .inl h1.symm
    · by_cases h2 : Atom.str "b" = k
      · exact .inr h2.symm
      · simp [h1, h2] at h

/-- `T←⍉D` -/
def tab : Tab Atom (Col Unit Int) := ⟨⟨[.str "a", .str "b"], [(.str "a", ⟨(), [10, 20, 30]⟩), (.str "b", ⟨(), [5, 6, 5]⟩)]⟩, 3⟩

example : transposeObject env dict = .ok tab := rfl

theorem tab_good : GoodTable tab := (C64_flip env env_len dict dict_good tab rfl).1

/-- `T[3 1;`b`a]` -/
example : ∃ d, tableIndex env 1 (fun _ : Unit => (pure none : ExceptT Fail Id _)) tab [.vec true [.num 3, .num 1], .vec false [.str "b", .str "a"]] =
    pure (.tab ⟨d, 2⟩) ∧ PartOf tab [2, 0] [.str "b", .str "a"] d := by
  obtain ⟨v, h1, h2⟩ := C65_index env 1 (fun _ : Unit => (pure none : ExceptT Fail Id _)) tab tab_good
    [.vec true [.num 3, .num 1], .vec false [.str "b", .str "a"]] [2, 0] [.str "b", .str "a"]
    (.cols _ _ _ _ (.vec true _ _ (.inr rfl) (.cons ⟨rfl, by decide⟩ (.cons ⟨rfl, by decide⟩ .nil))) (by decide))
  cases h2 with
  | tab d _ h => exact ⟨d, h1, h⟩
  | cell i k a hm => exact absurd ⟨_, List.mem_cons_self, trivial⟩ hm
  | col k c hm => exact absurd ⟨_, List.mem_cons_self, trivial⟩ hm
  | dict d hm => exact absurd ⟨_, List.mem_cons_self, trivial⟩ hm

/-- `T[2;`b]` is 6, `T[2]` is a dictionary, `T[`b]` a column -/
example : tableIndex env 1 (fun _ : Unit => (pure none : ExceptT Fail Id _)) tab [.one (.num 2), .one (.str "b")] = pure (.cell 6) := rfl
example : tableIndex env 1 (fun _ : Unit => (pure none : ExceptT Fail Id _)) tab [.one (.num 2)] =
    pure (.dict ⟨[.str "a", .str "b"], [(.str "a", ⟨(), [20]⟩), (.str "b", ⟨(), [6]⟩)]⟩) := rfl
example : tableIndex env 1 (fun _ : Unit => (pure none : ExceptT Fail Id _)) tab [.one (.str "b")] = pure (.col ⟨(), [5, 6, 5]⟩) := rfl

/-- a function that selects the first and the last row -/
example : tableIndex env 1 (fun _ : Unit => (pure (some [true, false, true]) : ExceptT Fail Id _)) tab [.fn (), .one (.str "a")] =
    pure (.tab ⟨⟨[.str "a"], [(.str "a", ⟨(), [10, 30]⟩)]⟩, 2⟩) := rfl

end TabDemo

end Iv

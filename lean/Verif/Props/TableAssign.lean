import Verif.Props.TableQuery
import Verif.Lemmas.Alias
/-
C69 updates of tables: T[rows;columns]←R and T[rows;columns]f←R.
-/
namespace Iv
variable {K T A F G : Type} [DecidableEq K] [DecidableEq T] [DecidableEq A] {m : Type → Type} [Monad m] [LawfulMonad m]

/-! ### Specification -/

/-- The new cells that the right argument supplies for each of the columns `ks` and `n` rows, with the type of the vector that holds them:
a scalar is repeated; a dictionary has a scalar for each of the columns; a table has the same columns and a row for each row; an array has
a row for each row and a column for each column (a vector counts as a single column), and its elements are converted to the type of the
column in the table. -/
inductive Supplies (env : TabEnv K T A) (t : Tab K (Col T A)) (n : Nat) (ks : List K) : TRhs K T A → (K → Option T × List A) → Prop
  | one (a : A) : Supplies env t n ks (.one a) (fun _ => (env.uniArr (List.replicate n a), List.replicate n a))
  | dict (d : Dict K (TV A)) (a : K → A) : d.keys = ks → (∀ k ∈ ks, d.at k = some (.one (a k))) →
      Supplies env t n ks (.dict d) (fun k => (env.uniArr (List.replicate n (a k)), List.replicate n (a k)))
  | tab (r : Tab K (Col T A)) (c : K → Col T A) : r.dict.keys = ks → (∀ k ∈ ks, r.dict.at k = some (c k) ∧ (c k).cells.length = n) →
      Supplies env t n ks (.tab r) (fun k => (some (c k).ty, (c k).cells))
  | arr (shape : List Nat) (l : List A) (new : K → Option T × List A) : (shape = [n] ∧ ks.length = 1 ∨ shape = [n, ks.length]) →
      l.length = n * ks.length →
      (∀ (p : Nat) k c, ks[p]? = some k → t.dict.at k = some c → (new k).1 = some c.ty ∧ (new k).2.length = n ∧
        ∀ j, j < n → ∃ a b, l[j * ks.length + p]? = some a ∧ env.conv c.ty a = some b ∧ (new k).2[j]? = some b) →
      Supplies env t n ks (.arr shape l) new

/-- The column `c` with the new cells in the rows `rs`: if the new cells have another type, all cells are brought to a common type. -/
def Replaces (env : TabEnv K T A) (c : Col T A) (rs : List Nat) (new : Option T × List A) (u : Col T A) : Prop :=
  ∃ cells : List A, cells.length = c.cells.length ∧ (∀ i, i ∉ rs → cells[i]? = c.cells[i]?) ∧
    (rs.Nodup → ∀ (j i : Nat), rs[j]? = some i → cells[i]? = new.2[j]?) ∧
    (if new.1 = some c.ty then u = ⟨c.ty, cells⟩ else env.uni cells = some u)

theorem setRows_spec (rs : List Nat) (cells new : List A) (hl : new.length = rs.length) (hr : ∀ i ∈ rs, i < cells.length) :
    (setRows cells rs new).length = cells.length ∧ (∀ i, i ∉ rs → (setRows cells rs new)[i]? = cells[i]?) ∧
    (rs.Nodup → ∀ (j i : Nat), rs[j]? = some i → (setRows cells rs new)[i]? = new[j]?) := by
  induction rs generalizing cells new with
  | nil => exact ⟨rfl, fun _ _ => rfl, by simp⟩
  | cons r rs ih =>
    cases new with
    | nil => simp at hl
    | cons a new =>
      have e : setRows cells (r :: rs) (a :: new) = setRows (cells.set r a) rs new := rfl
      obtain ⟨h1, h2, h3⟩ := ih (cells.set r a) new (by simpa using hl) (fun i hi => by simpa using hr i (by simp [hi]))
      rw [e]
      refine ⟨by simpa using h1, ?_, ?_⟩
      · intro i hi
        simp only [List.mem_cons, not_or] at hi
        rw [h2 i hi.2, List.getElem?_set_ne (Ne.symm hi.1)]
      · intro hn j i hj
        rw [List.nodup_cons] at hn
        cases j with
        | zero =>
          simp only [List.getElem?_cons_zero, Option.some.injEq] at hj
          subst hj
          rw [h2 r hn.1, List.getElem?_set_self (hr r (by simp))]
          rfl
        | succ j =>
          simp only [List.getElem?_cons_succ] at hj ⊢
          exact h3 hn.2 j i hj

theorem setCol_spec (env : TabEnv K T A) (c : Col T A) (rs : List Nat) (nc : Option T × List A) (u : Col T A) (hl : nc.2.length = rs.length)
    (hr : ∀ i ∈ rs, i < c.cells.length) (h : setCol env c rs nc = .ok u) : Replaces env c rs nc u := by
  obtain ⟨h1, h2, h3⟩ := setRows_spec rs c.cells nc.2 hl hr
  refine ⟨_, h1, h2, h3, ?_⟩
  unfold setCol at h
  by_cases ht : nc.1 = some c.ty
  · rw [if_pos ht] at h ⊢
    cases h
    rfl
  · rw [if_neg ht] at h ⊢
    unfold aggUnify at h
    cases hu : env.uni (setRows c.cells rs nc.2) with
    | none => rw [hu] at h; cases h
    | some u' => rw [hu] at h; cases h; rfl

/-- One column of an update: the modifier function is called with the old and the new cells and supplies the cells that are stored. -/
def updated (env : TabEnv K T A) (f : Option (List A → List A → ExceptT Fail m (TV A))) (c : Col T A) (rs : List Nat) (nc : Option T × List A) :
    ExceptT Fail m (Col T A) :=
  match f with
  | none => ofRes (setCol env c rs nc)
  | some f => do
    let v ← f (cellsIn c rs) nc.2
    let nc' ← ofRes (modCells env rs.length v)
    ofRes (setCol env c rs nc')

/-- the update of the column `k` of the table -/
def updatedColumn (env : TabEnv K T A) (f : Option (List A → List A → ExceptT Fail m (TV A))) (t : Tab K (Col T A)) (rs : List Nat)
    (new : K → Option T × List A) (k : K) : ExceptT Fail m (Col T A) :=
  match t.dict.at k with
  | some c => updated env f c rs (new k)
  | none => throw .panic

/-- the table with other columns -/
def replaceCols (t : Tab K (Col T A)) (l : List (K × Col T A)) : Tab K (Col T A) :=
  ⟨⟨t.dict.keys, l.foldl (fun mp e => mapSet mp e.1 e.2) t.dict.map⟩, t.rows⟩

theorem replaceCols_at (t : Tab K (Col T A)) (l : List (K × Col T A)) (k : K) (hn : (l.map (·.1)).Nodup) :
    (∀ v, (k, v) ∈ l → (replaceCols t l).dict.at k = some v) ∧ (k ∉ l.map (·.1) → (replaceCols t l).dict.at k = t.dict.at k) :=
  addCols_at l t.dict hn k

theorem dict_set_known (t : Tab K (Col T A)) (k : K) (c c' : Col T A) (h : t.dict.at k = some c) :
    t.dict.set k c' = ⟨t.dict.keys, mapSet t.dict.map k c'⟩ := by
  have h' : mapGet t.dict.map k = some c := h
  unfold Dict.set
  rw [h']
  rfl

theorem assignCols_eq (env : TabEnv K T A) (f : Option (List A → List A → ExceptT Fail m (TV A))) (t : Tab K (Col T A)) (rs : List Nat)
    (R : Dict K (TV A) ⊕ Tab K (Col T A)) (new : K → Option T × List A) (ks : List K) (hn : ks.Nodup)
    (hk : ∀ k ∈ ks, ∃ c, t.dict.at k = some c ∧ ∀ i ∈ rs, i < c.cells.length) (hnew : ∀ k ∈ ks, newCells env rs.length k R = .ok (new k)) :
    assignCols env f rs R ks t = (do
      let cols ← ks.mapM (updatedColumn env f t rs new)
      return replaceCols t (ks.zip cols)) := by
  induction ks generalizing t with
  | nil => simp [assignCols, replaceCols]
  | cons k ks ih =>
    rw [List.nodup_cons] at hn
    obtain ⟨c, hc, hlt⟩ := hk k (by simp)
    have hm : ∀ k' ∈ ks, ∀ u : Col T A, (⟨t.dict.set k u, t.rows⟩ : Tab K (Col T A)).dict.at k' = t.dict.at k' := by
      intro k' hk' u
      rw [dict_set_known t k c u hc]
      show mapGet (mapSet t.dict.map k u) k' = _
      rw [mapGet_set, if_neg (fun h => hn.1 (by subst h; exact hk'))]
      rfl
    have hcong : ∀ u : Col T A, ks.mapM (updatedColumn env f ⟨t.dict.set k u, t.rows⟩ rs new) = ks.mapM (updatedColumn env f t rs new) := by
      intro u
      apply mapM_congr'
      intro k' hk'
      unfold updatedColumn
      rw [hm k' hk' u]
    have hrep : ∀ (u : Col T A) (cols : List (Col T A)), replaceCols ⟨t.dict.set k u, t.rows⟩ (ks.zip cols) = replaceCols t ((k, u) :: ks.zip cols) := by
      intro u cols
      unfold replaceCols
      rw [dict_set_known t k c u hc]
      rfl
    have hstep : (assignCols env f rs R (k :: ks) t) = updatedColumn env f t rs new k >>= fun u => assignCols env f rs R ks ⟨t.dict.set k u, t.rows⟩ := by
      simp only [assignCols, colAt_ok hc, ofRes_ok, pure_bind, hnew k (by simp), updatedColumn, hc, updated, modify]
      cases f with
      | none => simp only [pure_bind]
      | some f => simp only [slice_cells c rs hlt, ofRes_ok, pure_bind, bind_assoc]
    rw [hstep, List.mapM_cons]
    simp only [bind_assoc, pure_bind]
    congr 1
    funext u
    rw [ih ⟨t.dict.set k u, t.rows⟩ hn.2 (fun k' hk' => by
      obtain ⟨c', h1, h2⟩ := hk k' (by simp [hk'])
      exact ⟨c', by rw [hm k' hk' u]; exact h1, h2⟩) (fun k' hk' => hnew k' (by simp [hk'])), hcong]
    congr 1
    funext cols
    rw [hrep, List.zip_cons_cons]

theorem rhsCols_spec (env : TabEnv K T A) (t : Tab K (Col T A)) (n w : Nat) (l : List A) (new : K → Option T × List A) (ks : List K) (p : Nat)
    (mp : List (K × Col T A)) (hn : ks.Nodup)
    (h : ∀ (q : Nat) k, ks[q]? = some k → ∃ c, t.dict.at k = some c ∧ (new k).1 = some c.ty ∧ (new k).2.length = n ∧
        ∀ j, j < n → ∃ a b, l[j * w + (p + q)]? = some a ∧ env.conv c.ty a = some b ∧ (new k).2[j]? = some b) :
    ∃ mp', rhsCols env t n w l ks p mp = .ok mp' ∧ (∀ k ∉ ks, mapGet mp' k = mapGet mp k) ∧
      ∀ k ∈ ks, ∃ c, mapGet mp' k = some c ∧ new k = (some c.ty, c.cells) := by
  induction ks generalizing p mp with
  | nil => exact ⟨mp, rfl, fun _ _ => rfl, by simp⟩
  | cons k ks ih =>
    rw [List.nodup_cons] at hn
    obtain ⟨c, hc, h1, h2, h3⟩ := h 0 k rfl
    have hm : (List.range n).mapM (fun i => do
        let v ← sliceAt l (i * w + p)
        convCell env c.ty v) = Except.ok (ε := Fail) (new k).2 := by
      obtain ⟨vs, e, hl, hv⟩ := mapM_pure_ex (M := Except Fail) (l := List.range n) (g := fun i => do
        let v ← sliceAt l (i * w + p)
        convCell env c.ty v) (P := fun i v => (new k).2[i]? = some v) (by
          intro i hi
          obtain ⟨a, b, q1, q2, q3⟩ := h3 i (List.mem_range.1 hi)
          rw [Nat.add_zero] at q1
          refine ⟨b, ?_, q3⟩
          rw [sliceAt_eq_ok.2 q1]
          simp only [bind, Except.bind, convCell, q2]
          rfl)
      rw [e]
      have : vs = (new k).2 := by
        apply List.ext_getElem?
        intro i
        by_cases hi : i < n
        · obtain ⟨v, q1, _, q2⟩ := hv i i (by simp [hi])
          rw [q1, q2]
        · rw [List.getElem?_eq_none (by rw [hl, List.length_range]; omega), List.getElem?_eq_none (by omega)]
      rw [this]
      rfl
    obtain ⟨mp', e, k1, k2⟩ := ih (p + 1) (mapSet mp k ⟨c.ty, (new k).2⟩) hn.2 (by
      intro q k' hq
      obtain ⟨c', r⟩ := h (q + 1) k' hq
      refine ⟨c', ?_⟩
      rw [show p + 1 + q = p + (q + 1) by omega]
      exact r)
    refine ⟨mp', ?_, ?_, ?_⟩
    · simp only [rhsCols, colAt_ok hc]
      have hm' : (do
          let cells ← (List.range n).mapM (fun i => do
            let v ← sliceAt l (i * w + p)
            convCell env c.ty v)
          rhsCols env t n w l ks (p + 1) (mapSet mp k ⟨c.ty, cells⟩)) = Except.ok mp' := by
        rw [hm]; exact e
      exact hm'
    · intro k' hk'
      simp only [List.mem_cons, not_or] at hk'
      rw [k1 k' hk'.2, mapGet_set, if_neg (Ne.symm hk'.1)]
    · intro k' hk'
      rcases List.mem_cons.1 hk' with rfl | hk'
      · refine ⟨⟨c.ty, (new k').2⟩, by rw [k1 k' hn.1, mapGet_set, if_pos rfl], ?_⟩
        rw [← h1]
      · exact k2 k' hk'

theorem one_at (ks : List K) (a : A) (mp : List (K × TV A)) (k : K) :
    mapGet (ks.foldl (fun mp k => mapSet mp k (TV.one a)) mp) k = if k ∈ ks then some (.one a) else mapGet mp k := by
  induction ks generalizing mp with
  | nil => simp
  | cons x ks ih =>
    rw [List.foldl_cons, ih, mapGet_set]
    by_cases h1 : k ∈ ks
    · simp [h1]
    · by_cases h2 : x = k
      · simp [h2]
      · simp [h1, h2, Ne.symm h2]

/-- the right argument as an object, for each of the columns -/
theorem rhs_supplies (env : TabEnv K T A) (t : Tab K (Col T A)) (n : Nat) (ks : List K) (R : TRhs K T A) (new : K → Option T × List A)
    (hn : ks.Nodup) (hk : ∀ k ∈ ks, (t.dict.at k).isSome = true) (h : Supplies env t n ks R new) :
    ∃ o, rhsObject env t n ks R = .ok o ∧ rhsKeys o = ks ∧ ∀ k ∈ ks, newCells env n k o = .ok (new k) := by
  cases h with
  | one a =>
    refine ⟨_, rfl, rfl, ?_⟩
    intro k hk
    have : (⟨ks, ks.foldl (fun mp k => mapSet mp k (TV.one a)) []⟩ : Dict K (TV A)).at k = some (.one a) := by
      show mapGet _ k = _
      rw [one_at, if_pos hk]
    simp only [newCells, this]
  | dict d a h1 h2 =>
    refine ⟨_, rfl, h1, ?_⟩
    intro k hk
    simp only [newCells, h2 k hk]
  | tab r c h1 h2 =>
    refine ⟨_, rfl, h1, ?_⟩
    intro k hk
    simp only [newCells, (h2 k hk).1]
    rw [if_neg (by simp [(h2 k hk).2])]
  | arr shape l _ hs hl hc =>
    have hw : rhsWidth n ks.length shape l = .ok ks.length := by
      rcases hs with ⟨rfl, h1⟩ | rfl
      · simp only [rhsWidth]
        rw [if_pos (by rw [hl, h1]; simp), if_neg (by simp [h1]), h1]
      · simp only [rhsWidth]
        rw [if_neg (by simp)]
    obtain ⟨mp, e, _, hmp⟩ := rhsCols_spec env t n ks.length l new ks 0 [] hn (by
      intro q k hq
      obtain ⟨c, hc'⟩ := Option.isSome_iff_exists.1 (hk k (List.mem_of_getElem? hq))
      refine ⟨c, hc', ?_⟩
      rw [Nat.zero_add]
      exact hc q k c hq hc')
    refine ⟨.inr ⟨⟨ks, mp⟩, n⟩, ?_, rfl, ?_⟩
    · simp only [rhsObject, hw, bind, Except.bind, e, pure, Except.pure]
    · intro k hk'
      obtain ⟨p, hp⟩ := List.getElem?_of_mem hk'
      obtain ⟨c', hc'⟩ := Option.isSome_iff_exists.1 (hk k hk')
      have hlen := (hc p k c' hp hc').2.1
      obtain ⟨c, q1, q2⟩ := hmp k hk'
      have q1' : (⟨ks, mp⟩ : Dict K (Col T A)).at k = some c := q1
      simp only [newCells, q1']
      rw [if_neg (by rw [q2] at hlen; simp [hlen]), q2]

theorem positions_keys (keys : List K) (cs : List Nat) (ks : List K) (h : List.Forall₂ (fun c k => keys[c]? = some k) cs ks) :
    cs.mapM (sliceAt keys) = .ok ks := by
  induction h with
  | nil => rfl
  | cons h1 _ ih => rw [List.mapM_cons, sliceAt_eq_ok.2 h1, ih]; rfl

/-- **C69.** T[I;C]←R and T[I;C]f←R: the columns are updated one after the other, each once, with the new cells that the right argument
supplies for it; with a modifier function, the function is called once for each column, with the old cells of the selected rows and the new
cells.  The result is the table with these columns replaced. -/
theorem C69_update (env : TabEnv K T A) (origin : Int) (select : F → ExceptT Fail m (Option (List Bool)))
    (f : Option (List A → List A → ExceptT Fail m (TV A))) (t : Tab K (Col T A)) (ht : GoodTable t) (spec : List (TSpec K F)) (rs : List Nat)
    (ks : List K) (hsp : Addresses env origin t spec rs ks) (hn : ks.Nodup) (R : TRhs K T A) (new : K → Option T × List A)
    (hR : Supplies env t rs.length ks R new) :
    tableAssign env origin select f t spec R = (do
      let cols ← ks.mapM (updatedColumn env f t rs new)
      return replaceCols t (ks.zip cols)) := by
  obtain ⟨cs, s, e, hf, hr⟩ := tableCols_ok env origin t spec rs ks hsp
  have hmem : ∀ k ∈ ks, k ∈ t.dict.keys := by
    intro k hk
    obtain ⟨c, _, hc⟩ := forall2_right_mem hf hk
    exact List.mem_of_getElem? hc
  have hsome : ∀ k ∈ ks, (t.dict.at k).isSome = true := fun k hk => (ht.mem k).1 (hmem k hk)
  obtain ⟨o, ho, hko, hnew⟩ := rhs_supplies env t rs.length ks R new hn hsome hR
  simp only [tableAssign, tableSelection, e, ofRes_ok, pure_bind, tableRows_ok env origin t.rows select s rs hr, checkRows_ok origin t.rows rs hr.lt,
    assignTable, positions_keys _ _ _ hf, ho]
  rw [if_neg (by simp [hko])]
  apply assignCols_eq env f t rs o new ks hn _ hnew
  intro k hk
  obtain ⟨c, hc⟩ := Option.isSome_iff_exists.1 (hsome k hk)
  exact ⟨c, hc, fun i hi => by rw [ht.rows k c hc]; exact hr.lt i hi⟩

/-- **C69.** Replacing columns by columns of the same length: the table keeps its keys, its rows and all other columns. -/
theorem C69_replaced (t : Tab K (Col T A)) (ht : GoodTable t) (ks : List K) (cols : List (Col T A)) (hn : ks.Nodup) (hl : cols.length = ks.length)
    (hk : ∀ k ∈ ks, k ∈ t.dict.keys) (hr : ∀ c ∈ cols, c.cells.length = t.rows) :
    GoodTable (replaceCols t (ks.zip cols)) ∧ (replaceCols t (ks.zip cols)).dict.keys = t.dict.keys ∧ (replaceCols t (ks.zip cols)).rows = t.rows ∧
      (∀ k, k ∉ ks → (replaceCols t (ks.zip cols)).dict.at k = t.dict.at k) ∧
      ∀ (j : Nat) k, ks[j]? = some k → (replaceCols t (ks.zip cols)).dict.at k = cols[j]? := by
  have hz : (ks.zip cols).map (·.1) = ks := by rw [List.map_fst_zip (by omega)]
  have h1 : ∀ k, k ∉ ks → (replaceCols t (ks.zip cols)).dict.at k = t.dict.at k := fun k hk =>
    (replaceCols_at t (ks.zip cols) k (by rw [hz]; exact hn)).2 (by rw [hz]; exact hk)
  have h2 : ∀ (j : Nat) k, ks[j]? = some k → (replaceCols t (ks.zip cols)).dict.at k = cols[j]? := by
    intro j k hj
    have hjl := (List.getElem?_eq_some_iff.1 hj).1
    have hc : cols[j]? = some cols[j] := List.getElem?_eq_getElem (by omega)
    rw [hc]
    refine (replaceCols_at t (ks.zip cols) k (by rw [hz]; exact hn)).1 _ ?_
    apply List.mem_of_getElem? (i := j)
    rw [List.getElem?_zip_eq_some]
    exact ⟨hj, hc⟩
  refine ⟨⟨ht.nodup, ?_, ?_⟩, rfl, rfl, h1, h2⟩
  · intro k
    show k ∈ t.dict.keys ↔ _
    by_cases hks : k ∈ ks
    · obtain ⟨j, hj⟩ := List.getElem?_of_mem hks
      have hjl := (List.getElem?_eq_some_iff.1 hj).1
      rw [h2 j k hj, List.getElem?_eq_getElem (by omega)]
      simp [hk k hks]
    · rw [h1 k hks]
      exact ht.mem k
  · intro k c hc
    by_cases hks : k ∈ ks
    · obtain ⟨j, hj⟩ := List.getElem?_of_mem hks
      rw [h2 j k hj] at hc
      exact hr c (List.mem_of_getElem? hc)
    · rw [h1 k hks] at hc
      exact ht.rows k c hc

/-- **C69.** T[I;C]←R changes exactly the selected cells: the result is a proper table with the same keys and rows, the columns that are not
selected are the same, and a selected column has the new cells in the selected rows and the old ones elsewhere.  If the new cells have another
type than the column, the whole column is brought to a common type. -/
theorem C69_cells (env : TabEnv K T A) (hU : UniLen env) (origin : Int) (select : F → ExceptT Fail m (Option (List Bool))) (t : Tab K (Col T A))
    (ht : GoodTable t) (spec : List (TSpec K F)) (rs : List Nat) (ks : List K) (hsp : Addresses env origin t spec rs ks) (hn : ks.Nodup)
    (R : TRhs K T A) (new : K → Option T × List A) (hR : Supplies env t rs.length ks R new)
    (huni : ∀ k ∈ ks, ∀ c, t.dict.at k = some c → (new k).1 ≠ some c.ty → ∀ l : List A, l.length = c.cells.length → (env.uni l).isSome = true) :
    ∃ t', tableAssign env origin select none t spec R = pure t' ∧ GoodTable t' ∧ t'.dict.keys = t.dict.keys ∧ t'.rows = t.rows ∧
      (∀ k, k ∉ ks → t'.dict.at k = t.dict.at k) ∧
      ∀ k ∈ ks, ∃ c u, t.dict.at k = some c ∧ t'.dict.at k = some u ∧ Replaces env c rs (new k) u := by
  rw [C69_update env origin select none t ht spec rs ks hsp hn R new hR]
  obtain ⟨cs, s, e, hf, hr⟩ := tableCols_ok env origin t spec rs ks hsp
  have hmem : ∀ k ∈ ks, k ∈ t.dict.keys := by
    intro k hk
    obtain ⟨c, _, hc⟩ := forall2_right_mem hf hk
    exact List.mem_of_getElem? hc
  have hlen : ∀ k ∈ ks, (new k).2.length = rs.length := by
    intro k hk
    cases hR with
    | one a => simp
    | dict d a _ _ => simp
    | tab r c _ h => exact (h k hk).2
    | arr shape l _ _ _ h =>
      obtain ⟨p, hp⟩ := List.getElem?_of_mem hk
      obtain ⟨c, hc⟩ := Option.isSome_iff_exists.1 ((ht.mem k).1 (hmem k hk))
      exact (h p k c hp hc).2.1
  have hstep : ∀ k ∈ ks, ∃ u, updatedColumn (m := m) env none t rs new k = pure u ∧
      ∃ c, t.dict.at k = some c ∧ Replaces env c rs (new k) u ∧ u.cells.length = t.rows := by
    intro k hk
    obtain ⟨c, hc⟩ := Option.isSome_iff_exists.1 ((ht.mem k).1 (hmem k hk))
    have hlt : ∀ i ∈ rs, i < c.cells.length := fun i hi => by rw [ht.rows k c hc]; exact hr.lt i hi
    have hs := setRows_spec rs c.cells (new k).2 (hlen k hk) hlt
    have : ∃ u, setCol env c rs (new k) = .ok u ∧ u.cells.length = t.rows := by
      unfold setCol
      by_cases hty : (new k).1 = some c.ty
      · rw [if_pos hty]
        exact ⟨_, rfl, by rw [← ht.rows k c hc]; exact hs.1⟩
      · rw [if_neg hty]
        obtain ⟨u, hu⟩ := Option.isSome_iff_exists.1 (huni k hk c hc hty _ hs.1)
        refine ⟨u, by unfold aggUnify; rw [hu], ?_⟩
        rw [hU _ _ hu, hs.1, ht.rows k c hc]
    obtain ⟨u, hu, hul⟩ := this
    refine ⟨u, ?_, c, hc, setCol_spec env c rs (new k) u (hlen k hk) hlt hu, hul⟩
    unfold updatedColumn
    rw [hc]
    simp only [updated, hu, ofRes_ok]
  obtain ⟨cols, ecols, hcl, hcols⟩ := mapM_pure_ex (M := ExceptT Fail m) (l := ks) (g := updatedColumn (m := m) env none t rs new)
    (P := fun k u => ∃ c, t.dict.at k = some c ∧ Replaces env c rs (new k) u ∧ u.cells.length = t.rows) hstep
  have hrows : ∀ c ∈ cols, c.cells.length = t.rows := by
    intro c hc
    obtain ⟨j, hj⟩ := List.getElem?_of_mem hc
    have hjl := (List.getElem?_eq_some_iff.1 hj).1
    obtain ⟨u, q1, _, c', _, _, q2⟩ := hcols j ks[j] (List.getElem?_eq_getElem (by omega))
    rw [hj] at q1
    cases q1
    exact q2
  obtain ⟨g1, g2, g3, g4, g5⟩ := C69_replaced t ht ks cols hn hcl hmem hrows
  refine ⟨_, by rw [ecols, pure_bind], g1, g2, g3, g4, ?_⟩
  intro k hk
  obtain ⟨j, hj⟩ := List.getElem?_of_mem hk
  obtain ⟨u, q1, _, c, q2, q3, _⟩ := hcols j k hj
  exact ⟨c, u, q2, by rw [g5 j k hj, q1], q3⟩

/-- **C69.** If the right argument is an object whose keys are not the selected columns, or an array whose shape is not that of the selected
cells, the update fails (and no modifier function is called). -/
theorem C69_rejected (env : TabEnv K T A) (origin : Int) (select : F → ExceptT Fail m (Option (List Bool)))
    (f : Option (List A → List A → ExceptT Fail m (TV A))) (t : Tab K (Col T A)) (spec : List (TSpec K F)) (rs : List Nat)
    (ks : List K) (hsp : Addresses env origin t spec rs ks) (R : TRhs K T A)
    (h : (∃ d, R = .dict d ∧ d.keys ≠ ks) ∨ (∃ r, R = .tab r ∧ r.dict.keys ≠ ks) ∨
      ∃ shape l, R = .arr shape l ∧ shape ≠ [rs.length, ks.length] ∧ ¬ (shape = [rs.length] ∧ ks.length = 1)) :
    tableAssign env origin select f t spec R = throw .err := by
  obtain ⟨cs, s, e, hf, hr⟩ := tableCols_ok env origin t spec rs ks hsp
  simp only [tableAssign, tableSelection, e, ofRes_ok, pure_bind, tableRows_ok env origin t.rows select s rs hr, checkRows_ok origin t.rows rs hr.lt,
    assignTable, positions_keys _ _ _ hf]
  rcases h with ⟨d, rfl, h⟩ | ⟨r, rfl, h⟩ | ⟨shape, l, rfl, h1, h2⟩
  · simp only [rhsObject, ofRes_ok, pure_bind]
    rw [if_pos (by simpa [rhsKeys] using h)]
  · simp only [rhsObject, ofRes_ok, pure_bind]
    rw [if_pos (by simpa [rhsKeys] using h)]
  · have : rhsWidth rs.length ks.length shape l = .error .err := by
      match shape, h1, h2 with
      | [], _, _ => rfl
      | [n], _, h2 =>
        simp only [rhsWidth]
        split
        · rename_i hl
          rw [if_pos]
          by_contra hc
          simp only [not_or, Decidable.not_not] at hc
          exact h2 ⟨by rw [hc.1], hc.2.symm⟩
        · rfl
      | [a, b], h1, _ =>
        simp only [rhsWidth]
        rw [if_pos]
        by_contra hc
        simp only [not_or, Decidable.not_not] at hc
        exact h1 (by rw [hc.1, hc.2])
      | _ :: _ :: _ :: _, _, _ => rfl
    simp only [rhsObject, this, bind, Except.bind]
    exact ofRes_bind_error _ _

/-- **C69.** A modifier function has to return a vector with an element for each selected row, that can be brought to a common type. -/
theorem C69_modifier_value (env : TabEnv K T A) (c : Col T A) (rs : List Nat) (nc : Option T × List A) (v : TV A) (f : List A → List A → ExceptT Fail m (TV A))
    (hf : f (cellsIn c rs) nc.2 = pure v) (hv : ∀ l u, v = .vec l → l.length = rs.length → env.uni l ≠ some u) :
    updated env (some f) c rs nc = throw .err := by
  have : modCells env rs.length v = .error .err := by
    cases v with
    | vec l =>
      simp only [modCells]
      by_cases hl : l.length ≠ rs.length
      · rw [if_pos hl]
      · rw [if_neg hl]
        cases hu : env.uni l with
        | none => rfl
        | some u => exact absurd hu (hv l u rfl (Classical.not_not.1 hl))
    | one _ => rfl
    | arr _ _ => rfl
    | obj => rfl
  simp only [updated, hf, pure_bind, this, ofRes_bind_error]

namespace TabDemo

/-- `T[1 3;`b]←7` -/
example : tableAssign env 1 (fun _ : Unit => (pure none : ExceptT Fail Id _)) none tab [.vec true [.num 1, .num 3], .one (.str "b")] (.one 7) =
    pure ⟨⟨[.str "a", .str "b"], [(.str "a", ⟨(), [10, 20, 30]⟩), (.str "b", ⟨(), [7, 6, 7]⟩)]⟩, 3⟩ := rfl

/-- the hypotheses of `C69_cells` hold for it -/
example : ∃ t', tableAssign env 1 (fun _ : Unit => (pure none : ExceptT Fail Id _)) none tab [.vec true [.num 1, .num 3], .one (.str "b")] (.one 7) =
    pure t' ∧ GoodTable t' ∧ t'.dict.at (.str "a") = tab.dict.at (.str "a") := by
  obtain ⟨t', h1, h2, _, _, h3, _⟩ := C69_cells env env_len 1 (fun _ : Unit => (pure none : ExceptT Fail Id _)) tab tab_good
    [.vec true [.num 1, .num 3], .one (.str "b")] [0, 2] [.str "b"]
    (.col _ _ _ (.vec true _ _ (.inr rfl) (.cons ⟨rfl, by decide⟩ (.cons ⟨rfl, by decide⟩ .nil))) (by decide)) (by decide) (.one 7) _ (.one 7)
    (fun _ _ _ _ _ _ _ => rfl)
  exact ⟨t', h1, h2, h3 _ (by decide)⟩

/-- a 2×2 array on the right, with a modifier that adds -/
example : tableAssign env 1 (fun _ : Unit => (pure none : ExceptT Fail Id _)) (some fun l r => pure (.vec (l.zipWith (· + ·) r))) tab
    [.vec true [.num 3, .num 1], .vec false [.str "b", .str "a"]] (.arr [2, 2] [100, 200, 300, 400]) =
    pure ⟨⟨[.str "a", .str "b"], [(.str "a", ⟨(), [410, 20, 230]⟩), (.str "b", ⟨(), [305, 6, 105]⟩)]⟩, 3⟩ := rfl

end TabDemo

end Iv

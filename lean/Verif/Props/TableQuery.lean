import Verif.Props.Table
/-
C66 queries of tables: T[rows;columns;aggregation;group].
-/
namespace Iv
variable {K T A F G : Type} [DecidableEq K] [DecidableEq T] [DecidableEq A] {m : Type → Type} [Monad m] [LawfulMonad m]

/-! ### Specification -/

/-- the distinct elements, in the order of their first occurrences -/
def distinct : List A → List A
  | [] => []
  | a :: l => a :: (distinct l).filter (fun b => b ≠ a)

/-- the rows with this value in the group column, in the order of the table -/
def rowsWith (l : List A) (v : A) : List Nat := (List.range l.length).filter (fun i => l[i]? = some v)

/-- the cells of the column `c` in these rows -/
def cellsIn (c : Col T A) (is : List Nat) : List A := is.filterMap (fun i => c.cells[i]?)

theorem mem_distinct (l : List A) (v : A) : v ∈ distinct l ↔ v ∈ l := by
  induction l with
  | nil => rfl
  | cons a l ih =>
    simp only [distinct, List.mem_cons, List.mem_filter, ih, decide_eq_true_eq]
    constructor
    · rintro (h | ⟨h, _⟩)
      · exact .inl h
      · exact .inr h
    · rintro (h | h)
      · exact .inl h
      · by_cases hv : v = a
        · exact .inl hv
        · exact .inr ⟨h, hv⟩

theorem distinct_nodup (l : List A) : (distinct l).Nodup := by
  induction l with
  | nil => exact .nil
  | cons a l ih =>
    simp only [distinct, List.nodup_cons, List.mem_filter, decide_eq_true_eq]
    exact ⟨fun h => h.2 rfl, ih.filter _⟩

theorem distinct_snoc (l : List A) (v : A) : distinct (l ++ [v]) = distinct l ++ (if v ∈ l then [] else [v]) := by
  induction l with
  | nil => simp [distinct]
  | cons a l ih =>
    simp only [List.cons_append, distinct, ih, List.filter_append, List.mem_cons]
    by_cases hva : v = a
    · subst hva
      by_cases hl : v ∈ l <;> simp [hl]
    · by_cases hl : v ∈ l <;> simp [hl, hva]

theorem rowsWith_snoc (l : List A) (a v : A) : rowsWith (l ++ [a]) v = rowsWith l v ++ (if a = v then [l.length] else []) := by
  unfold rowsWith
  rw [List.length_append, List.length_singleton, List.range_succ, List.filter_append]
  congr 1
  · apply List.filter_congr
    intro i hi
    rw [List.getElem?_append_left (by simpa using hi)]
  · rw [List.filter_cons]
    simp only [List.getElem?_append_right (Nat.le_refl _), Nat.sub_self, List.getElem?_cons_zero, Option.some.injEq, decide_eq_true_eq, List.filter_nil]

theorem rowsWith_none (l : List A) (v : A) (h : v ∉ l) : rowsWith l v = [] := by
  unfold rowsWith
  rw [List.filter_eq_nil_iff]
  intro i _ hi
  exact h (List.mem_of_getElem? (by simpa using hi))

theorem groupLoop_eq (vs pre : List A) (mp : List (A × List Nat)) (hm : ∀ v, mapGet mp v = if v ∈ pre then some (rowsWith pre v) else none) :
    (groupLoop vs pre.length (distinct pre) mp).1 = distinct (pre ++ vs) ∧
    ∀ v, mapGet (groupLoop vs pre.length (distinct pre) mp).2 v = if v ∈ pre ++ vs then some (rowsWith (pre ++ vs) v) else none := by
  induction vs generalizing pre mp with
  | nil => simpa [groupLoop] using hm
  | cons a vs ih =>
    have step : ∀ is, (mapGet mp a).getD [] = is → ∀ v, mapGet (mapSet mp a (is ++ [pre.length])) v =
        if v ∈ pre ++ [a] then some (rowsWith (pre ++ [a]) v) else none := by
      intro is his v
      rw [mapGet_set, rowsWith_snoc]
      by_cases hv : a = v
      · subst hv
        simp only [if_true, List.mem_append, List.mem_singleton, or_true]
        rw [← his, hm a]
        by_cases ha : a ∈ pre
        · simp [ha]
        · simp [ha, rowsWith_none pre a ha]
      · simp only [hv, if_false, List.append_nil, hm v, List.mem_append, List.mem_singleton, Ne.symm hv, or_false]
    have happ : pre ++ a :: vs = (pre ++ [a]) ++ vs := by simp
    have hlen : pre.length + 1 = (pre ++ [a]).length := by simp
    rw [happ]
    by_cases ha : a ∈ pre
    · have hg : mapGet mp a = some (rowsWith pre a) := by rw [hm, if_pos ha]
      have hd : distinct pre = distinct (pre ++ [a]) := by rw [distinct_snoc]; simp [ha]
      simp only [groupLoop, hg]
      rw [hlen, hd]
      exact ih (pre ++ [a]) _ (step _ (by rw [hg]; rfl))
    · have hg : mapGet mp a = none := by rw [hm, if_neg ha]
      have hd : distinct pre ++ [a] = distinct (pre ++ [a]) := by rw [distinct_snoc]; simp [ha]
      simp only [groupLoop, hg]
      rw [hlen, hd]
      exact ih (pre ++ [a]) _ (step [] (by rw [hg]; rfl))

/-- **C66.** The groups are the distinct values of the group column in the order of their first occurrences, each with the rows that have
this value, in order. -/
theorem C66_groups (c : Col T A) : groupsOf c = (distinct c.cells).map (fun v => (some v, rowsWith c.cells v)) := by
  have h := groupLoop_eq c.cells [] [] (by intro v; simp [mapGet])
  simp only [List.length_nil, List.nil_append, distinct] at h
  simp only [groupsOf, h.1]
  apply List.map_congr_left
  intro v hv
  rw [h.2 v, if_pos ((mem_distinct _ v).1 hv)]
  rfl

/-- **C66.** Every row is in exactly one group. -/
theorem C66_partition (c : Col T A) (i : Nat) (hi : i < c.cells.length) : ∃ v, v ∈ distinct c.cells ∧ i ∈ rowsWith c.cells v ∧
    ∀ w, i ∈ rowsWith c.cells w → w = v := by
  refine ⟨c.cells[i], (mem_distinct _ _).2 (List.getElem_mem hi), ?_, ?_⟩
  · simp [rowsWith, hi]
  · intro w hw
    simp only [rowsWith, List.mem_filter, decide_eq_true_eq] at hw
    rw [List.getElem?_eq_getElem hi] at hw
    simpa using hw.2.symm

theorem slice_cells (c : Col T A) (is : List Nat) (h : ∀ i ∈ is, i < c.cells.length) : is.mapM (sliceAt c.cells) = .ok (cellsIn c is) := by
  induction is with
  | nil => rfl
  | cons i is ih =>
    have hi := h i (by simp)
    rw [List.mapM_cons, sliceAt_ok hi, ih (fun j hj => h j (by simp [hj]))]
    simp only [cellsIn, List.filterMap_cons, List.getElem?_eq_getElem hi]
    rfl

/-- one column: the function is called for each group, the results are joined -/
theorem aggGroups_eq (call : G → List A → ExceptT Fail m (List A)) (c : Col T A) (g : G) (groups : List (Option A × List Nat))
    (h : ∀ e ∈ groups, ∀ i ∈ e.2, i < c.cells.length) (res gres : List A) :
    aggGroups call c g groups res gres = (do
      let rs ← groups.mapM (fun e => call g (cellsIn c e.2))
      return (res ++ rs.flatten, gres ++ ((groups.zip rs).flatMap (fun p => p.1.1.toList.flatMap (List.replicate p.2.length))))) := by
  induction groups generalizing res gres with
  | nil => simp [aggGroups]
  | cons e groups ih =>
    obtain ⟨gv, is⟩ := e
    simp only [aggGroups, slice_cells c is (h (gv, is) (by simp)), ofRes_ok, pure_bind, List.mapM_cons, bind_assoc]
    congr 1
    funext r
    rw [ih (fun e he => h e (by simp [he]))]
    congr 1
    funext rs
    simp [List.append_assoc]

/-! ### Queries with functions that return a scalar for each group -/

/-- the function returns a scalar -/
def ReturnsScalar (call : G → List A → ExceptT Fail m (List A)) (one : G → List A → ExceptT Fail m A) : Prop :=
  ∀ g y, call g y = one g y >>= fun a => pure [a]

theorem mapM_single {β γ : Type} (l : List β) (f : β → ExceptT Fail m γ) :
    l.mapM (fun x => f x >>= fun a => pure [a]) = l.mapM f >>= fun rs => pure (rs.map (fun a => [a])) := by
  induction l with
  | nil => simp
  | cons x l ih =>
    rw [List.mapM_cons, List.mapM_cons, ih]
    simp only [bind_assoc, pure_bind, List.map_cons]

/-- the aggregation of one column: the function is called for each group in order, with the cells of the column in the rows of the group,
and the results are brought to one type -/
def aggregate (env : TabEnv K T A) (one : G → List A → ExceptT Fail m A) (groups : List (List Nat)) (c : Col T A) (g : G) : ExceptT Fail m (Col T A) := do
  let rs ← groups.mapM (fun is => one g (cellsIn c is))
  ofRes (aggUnify env rs)


/-- the aggregation of the column `k` of the table -/
def aggregateColumn (env : TabEnv K T A) (one : G → List A → ExceptT Fail m A) (t : Tab K (Col T A)) (groups : List (List Nat)) (k : K) (g : G) :
    ExceptT Fail m (Col T A) :=
  match t.dict.at k with
  | some c => aggregate env one groups c g
  | none => throw .panic

/-- the dictionary with these columns added at the end; the last column with a name counts -/
def addCols {V : Type} (d : Dict K V) (l : List (K × V)) : Dict K V :=
  ⟨d.keys ++ l.map (·.1), l.foldl (fun mp e => mapSet mp e.1 e.2) d.map⟩

theorem addCols_at {V : Type} (l : List (K × V)) (d : Dict K V) (hn : (l.map (·.1)).Nodup) (k : K) :
    (∀ v, (k, v) ∈ l → (addCols d l).at k = some v) ∧ (k ∉ l.map (·.1) → (addCols d l).at k = d.at k) := by
  induction l generalizing d with
  | nil => exact ⟨by simp, fun _ => rfl⟩
  | cons e l ih =>
    obtain ⟨a, w⟩ := e
    simp only [List.map_cons, List.nodup_cons] at hn
    have key : (addCols d ((a, w) :: l)).at k = (addCols ⟨d.keys ++ [a], mapSet d.map a w⟩ l).at k := rfl
    have hat : (⟨d.keys ++ [a], mapSet d.map a w⟩ : Dict K V).at k = if a = k then some w else d.at k := mapGet_set _ _ _ _
    obtain ⟨i1, i2⟩ := ih ⟨d.keys ++ [a], mapSet d.map a w⟩ hn.2
    rw [key]
    constructor
    · intro v hv
      rw [List.mem_cons] at hv
      rcases hv with hv | hv
      · cases hv
        rw [i2 hn.1, hat, if_pos rfl]
      · exact i1 v hv
    · intro h
      simp only [List.map_cons, List.mem_cons, not_or] at h
      rw [i2 h.2, hat, if_neg (Ne.symm h.1)]

theorem aggCols_eq (env : TabEnv K T A) (hU : UniLen env) (call : G → List A → ExceptT Fail m (List A)) (one : G → List A → ExceptT Fail m A)
    (h1 : ReturnsScalar call one) (t : Tab K (Col T A)) (ht : GoodTable t) (groups : List (Option A × List Nat)) (hg : ∀ e ∈ groups, ∀ i ∈ e.2, i < t.rows)
    (plan : List (K × K × G)) (hp : ∀ p ∈ plan, p.1 ∈ t.dict.keys) (n : Option Nat) (hn : ∀ x, n = some x → x = groups.length) (gres : List A)
    (d : Dict K (Col T A)) :
    aggCols env call t groups plan n gres d = (do
      let cols ← plan.mapM (fun p => aggregateColumn env one t (groups.map (·.2)) p.1 p.2.2)
      return (addCols d ((plan.map (fun p => p.2.1)).zip cols), (if plan = [] then n.getD 0 else groups.length),
        (if plan = [] ∨ n.isSome then gres else groups.filterMap (·.1)))) := by
  induction plan generalizing n gres d with
  | nil => simp [aggCols, addCols]
  | cons p plan ih =>
    obtain ⟨k, name, g⟩ := p
    obtain ⟨c, hc⟩ := Option.isSome_iff_exists.1 ((ht.mem k).1 (hp _ List.mem_cons_self))
    have hlen := ht.rows k c hc
    have hfl : ∀ l : List A, (l.map (fun a => [a])).flatten = l := fun l => by induction l with
      | nil => rfl
      | cons a l ih => simp [ih]
    have hgr : ∀ (gs : List (Option A × List Nat)) (rs : List A), rs.length = gs.length →
        (gs.zip (rs.map (fun a => [a]))).flatMap (fun p => p.1.1.toList.flatMap (List.replicate p.2.length)) = gs.filterMap (·.1) := by
      intro gs
      induction gs with
      | nil => intro rs _; rfl
      | cons e gs ih =>
        intro rs hr
        cases rs with
        | nil => simp at hr
        | cons r rs =>
          have := ih rs (by simpa using hr)
          obtain ⟨gv, is⟩ := e
          simp only [List.map_cons, List.zip_cons_cons, List.flatMap_cons, this]
          cases gv <;> rfl
    have hcall : ∀ gs : List (Option A × List Nat), gs.mapM (fun e : Option A × List Nat => call g (cellsIn c e.2)) =
        (gs.map (·.2)).mapM (fun is => one g (cellsIn c is)) >>= fun rs => pure (rs.map (fun a => [a])) := by
      intro gs
      rw [← mapM_single, List.mapM_map]
      congr 1
      funext e
      exact h1 g _
    simp only [aggCols, colAt_ok hc, ofRes_ok, pure_bind]
    rw [aggGroups_eq call c g _ (by
      intro e he i hi
      rw [hlen]; exact hg e he i hi), hcall]
    simp only [bind_assoc, pure_bind, List.mapM_cons, aggregateColumn, hc, aggregate, List.nil_append, hfl]
    apply mapM_bind_congr (P := fun _ => True)
    · intro x _ k k' hk
      exact congrArg _ (funext fun v => hk v trivial)
    · intro rs hl _
      rw [List.length_map] at hl
      rw [hgr groups rs hl]
      unfold aggUnify
      cases hu : env.uni rs with
      | none => simp only [ofRes_bind_error]
      | some u =>
        have hul : u.cells.length = groups.length := by rw [hU _ _ hu, hl]
        have hp' : ∀ p ∈ plan, p.1 ∈ t.dict.keys := fun p h => hp p (List.mem_cons_of_mem _ h)
        simp only [ofRes_ok, pure_bind]
        cases n with
        | none =>
          simp only []
          rw [ih hp' _ (by intro x hx; cases hx; exact hul)]
          congr 1
          funext cols
          simp [addCols, hul]
        | some x =>
          have hx := hn x rfl
          simp only []
          rw [if_neg (by rw [hul, hx]; simp), ih hp' _ (by intro y hy; cases hy; exact hx)]
          congr 1
          funext cols
          simp [addCols, hx]

/-- The table of a query: the group column first, then the aggregated columns. -/
def grouped (k : K) (gc : Col T A) (cols : List (K × Col T A)) (n : Nat) : Tab K (Col T A) :=
  ⟨⟨k :: cols.map (·.1), mapSet (addCols Dict.empty cols).map k gc⟩, n⟩

/-- the rows of each group -/
def groupRows (c : Col T A) : List (List Nat) := (distinct c.cells).map (rowsWith c.cells)

theorem rowsWith_lt (l : List A) (v : A) : ∀ i ∈ rowsWith l v, i < l.length := by
  intro i hi
  simp only [rowsWith, List.mem_filter, List.mem_range] at hi
  exact hi.1

theorem query_groups (env : TabEnv K T A) (hU : UniLen env) (call : G → List A → ExceptT Fail m (List A)) (one : G → List A → ExceptT Fail m A)
    (h1 : ReturnsScalar call one) (t : Tab K (Col T A)) (ht : GoodTable t) (gc : Col T A) (hgc : gc.cells.length = t.rows)
    (plan : List (K × K × G)) (hp : ∀ p ∈ plan, p.1 ∈ t.dict.keys) (hne : plan ≠ []) :
    aggCols env call t (groupsOf gc) plan none [] Dict.empty = (do
      let cols ← plan.mapM (fun p => aggregateColumn env one t (groupRows gc) p.1 p.2.2)
      return (addCols Dict.empty ((plan.map (fun p => p.2.1)).zip cols), (distinct gc.cells).length, distinct gc.cells)) := by
  rw [C66_groups, aggCols_eq env hU call one h1 t ht _ (by
    intro e he i hi
    obtain ⟨v, _, rfl⟩ := List.mem_map.1 he
    rw [← hgc]
    exact rowsWith_lt _ _ i hi) plan hp none (by simp)]
  have e1 : ((distinct gc.cells).map (fun v => ((some v : Option A), rowsWith gc.cells v))).map (·.2) = groupRows gc := by
    rw [List.map_map]; rfl
  have e2 : ((distinct gc.cells).map (fun v => ((some v : Option A), rowsWith gc.cells v))).filterMap (·.1) = distinct gc.cells := by
    rw [List.filterMap_map]; exact List.filterMap_some ..
  simp only [e1, e2, hne, if_false, Option.isSome_none, Bool.false_eq_true, or_self, List.length_map]

/-- **C66.** A query that groups by a column, with functions that return a scalar.  The functions of the plan are called column by column and
for each column group by group, in the order of the groups, each with the cells of the column in the rows of the group.  The result has one
row for each distinct value of the group column, in the order of the first occurrences: the group column holds the values themselves, and
the other columns what the functions returned. -/
theorem C66_query (env : TabEnv K T A) (hU : UniLen env) (call : G → List A → ExceptT Fail m (List A)) (one : G → List A → ExceptT Fail m A)
    (h1 : ReturnsScalar call one) (mkGroup : G → ExceptT Fail m (TV A)) (t : Tab K (Col T A)) (ht : GoodTable t) (agg : Agg K G)
    (k : K) (gc : Col T A) (hk : t.dict.at k = some gc) (plan : List (K × K × G))
    (hplan : aggPlan (t.dict.keys.filter (fun k' => k' ≠ k)) agg = .ok plan) (hp : ∀ p ∈ plan, p.1 ∈ t.dict.keys) (hne : plan ≠ []) :
    tableQuery env call mkGroup t agg (some (.col k)) = (do
      let cols ← plan.mapM (fun p => aggregateColumn env one t (groupRows gc) p.1 p.2.2)
      let g ← ofRes (aggUnify env (distinct gc.cells))
      return grouped k g ((plan.map (fun p => p.2.1)).zip cols) (distinct gc.cells).length) := by
  have hmem : k ∈ t.dict.keys := (ht.mem k).2 (by rw [hk]; rfl)
  simp only [tableQuery, groupOf, if_pos hmem, colAt_ok hk, ofRes_ok, pure_bind, hplan]
  rw [query_groups env hU call one h1 t ht gc (ht.rows k gc hk) plan hp hne]
  simp only [bind_assoc, pure_bind]
  rfl

/-- **C66.** A query with a group function: the function is called once, with the number of rows, before anything else; its value must be a
vector with an element for each row.  The first column of the table is not aggregated. -/
theorem C66_query_function (env : TabEnv K T A) (hU : UniLen env) (call : G → List A → ExceptT Fail m (List A)) (one : G → List A → ExceptT Fail m A)
    (h1 : ReturnsScalar call one) (mkGroup : G → ExceptT Fail m (TV A)) (t : Tab K (Col T A)) (ht : GoodTable t) (agg : Agg K G)
    (name : K) (gf : G) (plan : List (K × K × G))
    (hplan : aggPlan t.dict.keys.tail agg = .ok plan) (hp : ∀ p ∈ plan, p.1 ∈ t.dict.keys) (hne : plan ≠ []) :
    tableQuery env call mkGroup t agg (some (.fn name gf)) = (do
      let v ← mkGroup gf
      let gc ← ofRes (groupColumn env t.rows v)
      let cols ← plan.mapM (fun p => aggregateColumn env one t (groupRows gc) p.1 p.2.2)
      let g ← ofRes (aggUnify env (distinct gc.cells))
      return grouped name g ((plan.map (fun p => p.2.1)).zip cols) (distinct gc.cells).length) := by
  simp only [tableQuery, groupOf, bind_assoc, pure_bind, hplan, ofRes_ok]
  congr 1
  funext v
  cases hv : groupColumn env t.rows v with
  | error e => simp only [ofRes_bind_error]
  | ok gc =>
    simp only [ofRes_ok, pure_bind]
    have hl : gc.cells.length = t.rows := by
      cases v with
      | vec l =>
        simp only [groupColumn, aggUnify] at hv
        by_cases hl : l.length ≠ t.rows
        · rw [if_pos hl] at hv; cases hv
        · rw [if_neg hl] at hv
          cases hu : env.uni l with
          | none => rw [hu] at hv; cases hv
          | some u =>
            rw [hu] at hv
            cases hv
            rw [hU _ _ hu]
            exact Classical.not_not.1 hl
      | one a => cases hv
      | arr s l => cases hv
      | obj => cases hv
    rw [query_groups env hU call one h1 t ht gc hl plan hp hne]
    simp only [bind_assoc, pure_bind]
    rfl

/-- **C66.** Without a group, each function is called once with the whole column, and the result has a single row. -/
theorem C66_query_all (env : TabEnv K T A) (hU : UniLen env) (call : G → List A → ExceptT Fail m (List A)) (one : G → List A → ExceptT Fail m A)
    (h1 : ReturnsScalar call one) (mkGroup : G → ExceptT Fail m (TV A)) (t : Tab K (Col T A)) (ht : GoodTable t) (agg : Agg K G)
    (plan : List (K × K × G)) (hplan : aggPlan t.dict.keys agg = .ok plan) (hp : ∀ p ∈ plan, p.1 ∈ t.dict.keys) (hne : plan ≠ []) :
    tableQuery env call mkGroup t agg none = (do
      let cols ← plan.mapM (fun p => aggregateColumn env one t [List.range t.rows] p.1 p.2.2)
      return ⟨addCols Dict.empty ((plan.map (fun p => p.2.1)).zip cols), 1⟩) := by
  simp only [tableQuery, hplan, ofRes_ok, pure_bind]
  rw [aggCols_eq env hU call one h1 t ht _ (by
    intro e he i hi
    rw [List.mem_singleton] at he
    subst he
    simpa using hi) plan hp none (by simp)]
  simp only [bind_assoc, pure_bind, hne, if_false, List.length_singleton]
  rfl

/-! ### Which functions are applied to which columns -/

/-- Columns and the names in a dictionary of functions: the same number of both, or several functions for a single column, or one function
for several columns. -/
inductive Pairs : List K → List K → List (K × K) → Prop
  | same (ks ns) : ks.length = ns.length → Pairs ks ns (ks.zip ns)
  | column (k ns) : 1 < ns.length → Pairs [k] ns (ns.map (fun n => (k, n)))
  | name (ks n) : 1 < ks.length → Pairs ks [n] (ks.map (fun k => (k, n)))

/-- the plan applies to the columns of the pairs the functions with the names of the pairs -/
def PlanOf (d : Dict K (Option G)) (plan : List (K × K × G)) (pairs : List (K × K)) : Prop :=
  List.Forall₂ (fun p q => p.1 = q.1 ∧ p.2.1 = q.2 ∧ d.at q.2 = some (some p.2.2)) plan pairs

theorem aggNames_ok (keys names a b : List K) (h : aggNames keys names = .ok (a, b)) :
    Pairs keys names (a.zip b) ∧ a.length = b.length := by
  unfold aggNames at h
  by_cases h1 : names.length = 1 ∧ 1 < keys.length
  · rw [if_pos h1] at h
    cases h
    obtain ⟨n, rfl⟩ := List.length_eq_one_iff.1 h1.1
    have e : [n].flatMap (List.replicate keys.length) = List.replicate keys.length n := by simp
    rw [e]
    refine ⟨?_, by simp⟩
    have : keys.zip (List.replicate keys.length n) = keys.map (fun k => (k, n)) := by
      clear h1 e
      induction keys with
      | nil => rfl
      | cons x a ih => rw [List.length_cons, List.replicate_succ, List.zip_cons_cons, ih]; rfl
    rw [this]
    exact .name keys n h1.2
  · rw [if_neg h1] at h
    by_cases h2 : keys.length = 1 ∧ 1 < names.length
    · rw [if_pos h2] at h
      cases h
      obtain ⟨k, rfl⟩ := List.length_eq_one_iff.1 h2.1
      have e : [k].flatMap (List.replicate names.length) = List.replicate names.length k := by simp
      rw [e]
      refine ⟨?_, by simp⟩
      have : (List.replicate names.length k).zip names = names.map (fun n => (k, n)) := by
        clear h1 h2 e
        induction names with
        | nil => rfl
        | cons x a ih => rw [List.length_cons, List.replicate_succ, List.zip_cons_cons, ih]; rfl
      rw [this]
      exact .column k names h2.2
    · rw [if_neg h2] at h
      by_cases h3 : names.length ≠ keys.length
      · rw [if_pos h3] at h; cases h
      · rw [if_neg h3] at h
        cases h
        have := Classical.not_not.1 h3
        exact ⟨.same _ _ this.symm, this.symm⟩

theorem aggNames_pairs (keys names : List K) (pairs : List (K × K)) (h : Pairs keys names pairs) :
    ∃ a b, aggNames keys names = .ok (a, b) ∧ a.zip b = pairs ∧ a.length = b.length := by
  cases h with
  | same _ _ h =>
    refine ⟨keys, names, ?_, rfl, h⟩
    unfold aggNames
    rw [if_neg (by omega), if_neg (by omega), if_neg (by omega)]
  | column k _ h =>
    have e : aggNames [k] names = .ok ([k].flatMap (List.replicate names.length), names) := by
      unfold aggNames
      rw [if_neg (by simp), if_pos ⟨rfl, h⟩]
    obtain ⟨p, hl⟩ := aggNames_ok _ _ _ _ e
    refine ⟨_, _, e, ?_, hl⟩
    rw [List.flatMap_singleton]
    clear h e p hl
    induction names with
    | nil => rfl
    | cons x a ih => rw [List.length_cons, List.replicate_succ, List.zip_cons_cons, ih]; rfl
  | name _ n h =>
    have e : aggNames keys [n] = .ok (keys, [n].flatMap (List.replicate keys.length)) := by
      unfold aggNames
      rw [if_pos ⟨rfl, h⟩]
    obtain ⟨p, hl⟩ := aggNames_ok _ _ _ _ e
    refine ⟨_, _, e, ?_, hl⟩
    rw [List.flatMap_singleton]
    clear h e p hl
    induction keys with
    | nil => rfl
    | cons x a ih => rw [List.length_cons, List.replicate_succ, List.zip_cons_cons, ih]; rfl

theorem plan_zip (d : Dict K (Option G)) (a b : List K) (hl : a.length = b.length) (plan : List (K × K × G)) :
    (b.mapM (aggFn d) >>= fun fs => pure (a.zip (b.zip fs))) = .ok plan ↔ PlanOf d plan (a.zip b) := by
  unfold PlanOf
  induction b generalizing a plan with
  | nil =>
    cases a with
    | cons _ _ => simp at hl
    | nil =>
      constructor
      · intro h
        cases h
        exact .nil
      · intro h
        cases h
        rfl
  | cons n b ih =>
    cases a with
    | nil => simp at hl
    | cons k a =>
      have hl' : a.length = b.length := by simpa using hl
      rw [List.mapM_cons]
      cases hf : aggFn d n with
      | error e =>
        constructor
        · intro h; cases h
        · intro h
          rw [List.zip_cons_cons] at h
          cases h with
          | cons h _ =>
            unfold aggFn at hf
            rw [h.2.2] at hf
            cases hf
      | ok g =>
        have hat : d.at n = some (some g) := by
          unfold aggFn at hf
          split at hf
          · rename_i h; rw [h]; cases hf; rfl
          · cases hf
        cases hr : b.mapM (aggFn d) with
        | error e =>
          constructor
          · intro h; cases h
          · intro h
            rw [List.zip_cons_cons] at h
            cases h with
            | cons _ h2 =>
              have := (ih a hl' _).2 h2
              rw [hr] at this
              cases this
        | ok fs =>
          have ih' := fun pl => ih a hl' pl
          simp only [hr] at ih'
          constructor
          · intro h
            cases h
            exact .cons ⟨rfl, rfl, hat⟩ ((ih' _).1 rfl)
          · intro h
            rw [List.zip_cons_cons] at h
            cases h with
            | @cons p _ ps _ h1 h2 =>
              have e := (ih' _).2 h2
              obtain ⟨p1, p2, p3⟩ := p
              obtain ⟨q1, q2, q3⟩ := h1
              simp only at q1 q2 q3
              subst q1 q2
              rw [hat] at q3
              cases q3
              cases e
              rfl

/-- **C66.** A dictionary of functions is applied to the columns in order: as many functions as columns, several functions to a single
column, or one function to several columns; the results get the names in the dictionary.  Any other number, or a value that is not a
function, is an error. -/
theorem C66_plan (keys : List K) (d : Dict K (Option G)) :
    (∀ plan, aggPlan keys (.dict d) = .ok plan ↔ ∃ pairs, Pairs keys d.keys pairs ∧ PlanOf d plan pairs) ∧
    ((¬ ∃ plan pairs, Pairs keys d.keys pairs ∧ PlanOf d plan pairs) → aggPlan keys (.dict d) = .error .err) := by
  have key : ∀ plan, aggPlan keys (.dict d) = .ok plan ↔ ∃ pairs, Pairs keys d.keys pairs ∧ PlanOf d plan pairs := by
    intro plan
    constructor
    · intro h
      simp only [aggPlan] at h
      cases hn : aggNames keys d.keys with
      | error e => rw [hn] at h; cases h
      | ok ab =>
        obtain ⟨a, b⟩ := ab
        obtain ⟨hp, hl⟩ := aggNames_ok _ _ _ _ hn
        rw [hn] at h
        exact ⟨_, hp, (plan_zip d a b hl plan).1 h⟩
    · rintro ⟨pairs, hp, hpl⟩
      obtain ⟨a, b, hn, hz, hl⟩ := aggNames_pairs _ _ _ hp
      subst hz
      simp only [aggPlan, hn]
      exact (plan_zip d a b hl plan).2 hpl
  refine ⟨key, fun h => ?_⟩
  have hf : ∀ n e, aggFn d n = .error e → e = .err := by
    intro n e h
    unfold aggFn at h
    split at h
    · cases h
    · cases h; rfl
  have hm : ∀ (l : List K) e, l.mapM (aggFn d) = .error e → e = .err := by
    intro l
    induction l with
    | nil => intro e h; cases h
    | cons n l ih =>
      intro e h
      rw [List.mapM_cons] at h
      cases hn : aggFn d n with
      | error e' => rw [hn] at h; cases h; exact hf _ _ hn
      | ok g =>
        rw [hn] at h
        cases hr : l.mapM (aggFn d) with
        | error e' => rw [hr] at h; cases h; exact ih _ hr
        | ok fs => rw [hr] at h; cases h
  cases hp : aggPlan keys (.dict d) with
  | ok plan => exact absurd ⟨plan, (key plan).1 hp⟩ h
  | error e =>
    simp only [aggPlan] at hp
    cases hn : aggNames keys d.keys with
    | error e' =>
      rw [hn] at hp
      cases hp
      unfold aggNames at hn
      split at hn
      · cases hn
      · split at hn
        · cases hn
        · split at hn
          · cases hn; rfl
          · cases hn
    | ok ab =>
      rw [hn] at hp
      cases hr : ab.2.mapM (aggFn d) with
      | error e' =>
        have hp' : (ab.2.mapM (aggFn d) >>= fun fs => pure (ab.1.zip (ab.2.zip fs))) = Except.error e := hp
        rw [hr] at hp'
        cases hp'
        rw [hm _ _ hr]
      | ok fs =>
        have hp' : (ab.2.mapM (aggFn d) >>= fun fs => pure (ab.1.zip (ab.2.zip fs))) = Except.error e := hp
        rw [hr] at hp'
        cases hp'

/-- **C66.** A single function is applied to every column, and the columns keep their names. -/
theorem C66_plan_function (keys : List K) (g : G) : ∃ plan, aggPlan keys (.fn g) = .ok plan ∧ plan.map (·.1) = keys ∧
    plan.map (·.2.1) = keys ∧ ∀ p ∈ plan, p.2.2 = g := by
  refine ⟨keys.map (fun k => (k, k, g)), rfl, ?_, ?_, ?_⟩
  · rw [List.map_map]; exact List.map_id _
  · rw [List.map_map]; exact List.map_id _
  · intro p hp
    obtain ⟨k, _, rfl⟩ := List.mem_map.1 hp
    rfl

/-- **C66.** If the aggregation is not a function or a dictionary of functions, or the group is not a column of the table, the query fails,
and none of the aggregation functions has been called. -/
theorem C66_rejected (env : TabEnv K T A) (call : G → List A → ExceptT Fail m (List A)) (mkGroup : G → ExceptT Fail m (TV A)) (t : Tab K (Col T A))
    (ht : GoodTable t) (agg : Agg K G) (k : K)
    (h : k ∉ t.dict.keys ∨ aggPlan (t.dict.keys.filter (fun k' => k' ≠ k)) agg = .error .err) :
    tableQuery env call mkGroup t agg (some (.col k)) = throw .err := by
  simp only [tableQuery, groupOf]
  by_cases hk : k ∈ t.dict.keys
  · obtain ⟨c, hc⟩ := Option.isSome_iff_exists.1 ((ht.mem k).1 hk)
    rcases h with h | h
    · exact absurd hk h
    · simp only [if_pos hk, colAt_ok hc, ofRes_ok, pure_bind, h, ofRes_bind_error]
  · simp only [if_neg hk, throw_bind']

/-! ### The values of a query -/

/-- what a function returns for all groups, one after the other -/
def overGroups (fn : G → List A → List A) (gs : List (List Nat)) (c : Col T A) (g : G) : List A := gs.flatMap (fun is => fn g (cellsIn c is))

/-- each group repeated as often as the function returns elements for it -/
def groupsRepeated (fn : G → List A → List A) (gc c : Col T A) (g : G) : List A :=
  (distinct gc.cells).flatMap (fun v => List.replicate (fn g (cellsIn c (rowsWith gc.cells v))).length v)

theorem aggCols_pure (env : TabEnv K T A) (call : G → List A → ExceptT Fail m (List A)) (fn : G → List A → List A)
    (hc : ∀ g y, call g y = pure (fn g y)) (t : Tab K (Col T A)) (ht : GoodTable t) (groups : List (Option A × List Nat))
    (hg : ∀ e ∈ groups, ∀ i ∈ e.2, i < t.rows) (p : K × K × G) (plan : List (K × K × G)) (c : Col T A) (hcol : t.dict.at p.1 = some c)
    (n : Option Nat) (gres : List A) (d : Dict K (Col T A)) :
    aggCols env call t groups (p :: plan) n gres d = (ofRes (aggUnify env (overGroups fn (groups.map (·.2)) c p.2.2)) >>= fun u =>
      if n.isSome ∧ n ≠ some u.cells.length then throw .err
      else aggCols env call t groups plan (some u.cells.length)
        (if n.isSome then gres else groups.flatMap (fun e => e.1.toList.flatMap (List.replicate (fn p.2.2 (cellsIn c e.2)).length)))
        ⟨d.keys ++ [p.2.1], mapSet d.map p.2.1 u⟩) := by
  obtain ⟨k, name, g⟩ := p
  have hlen := ht.rows k c hcol
  simp only [aggCols, colAt_ok hcol, ofRes_ok, pure_bind]
  rw [aggGroups_eq call c g _ (by
    intro e he i hi
    rw [hlen]; exact hg e he i hi)]
  simp only [hc, mapM_pure', pure_bind, List.nil_append]
  have e1 : (groups.map (fun e => fn g (cellsIn c e.2))).flatten = overGroups fn (groups.map (·.2)) c g := by
    unfold overGroups
    rw [List.flatMap_map]
    rfl
  have e2 : (groups.zip (groups.map (fun e => fn g (cellsIn c e.2)))).flatMap (fun p => p.1.1.toList.flatMap (List.replicate p.2.length)) =
      groups.flatMap (fun e => e.1.toList.flatMap (List.replicate (fn g (cellsIn c e.2)).length)) := by
    clear hg e1
    induction groups with
    | nil => rfl
    | cons e groups ih => rw [List.map_cons, List.zip_cons_cons, List.flatMap_cons, List.flatMap_cons, ih]
  rw [e1, e2]
  congr 1
  funext u
  cases n with
  | none => rfl
  | some n =>
    by_cases hn : u.cells.length ≠ n
    · simp [hn, Ne.symm hn]
    · have := Classical.not_not.1 hn
      simp [this]

/-- the columns `us` are what the plan gives for these groups -/
def Aggregated (env : TabEnv K T A) (fn : G → List A → List A) (t : Tab K (Col T A)) (gs : List (List Nat)) (plan : List (K × K × G))
    (us : List (Col T A)) : Prop :=
  List.Forall₂ (fun p u => ∃ c, t.dict.at p.1 = some c ∧ env.uni (overGroups fn gs c p.2.2) = some u) plan us

theorem aggCols_values (env : TabEnv K T A) (call : G → List A → ExceptT Fail m (List A)) (fn : G → List A → List A)
    (hc : ∀ g y, call g y = pure (fn g y)) (t : Tab K (Col T A)) (ht : GoodTable t) (groups : List (Option A × List Nat))
    (hg : ∀ e ∈ groups, ∀ i ∈ e.2, i < t.rows) (N : Nat) (plan : List (K × K × G)) (us : List (Col T A))
    (hus : Aggregated env fn t (groups.map (·.2)) plan us) (hN : ∀ u ∈ us, u.cells.length = N) (gres : List A) (d : Dict K (Col T A)) :
    aggCols env call t groups plan (some N) gres d = pure (addCols d ((plan.map (fun p => p.2.1)).zip us), N, gres) := by
  induction plan generalizing us d with
  | nil => cases hus; simp [aggCols, addCols]
  | cons p plan ih =>
    cases hus with
    | @cons _ u _ us h1 h2 =>
      obtain ⟨c, hcol, hu⟩ := h1
      have hul := hN u (by simp)
      rw [aggCols_pure env call fn hc t ht groups hg p plan c hcol]
      have : aggUnify env (overGroups fn (groups.map (·.2)) c p.2.2) = .ok u := by unfold aggUnify; rw [hu]
      rw [this, ofRes_ok, pure_bind, if_neg (by rw [hul]; simp), if_pos (show (some N).isSome = true from rfl), hul, ih us h2 (fun u hu => hN u (by simp [hu]))]
      simp [addCols]

/-- **C66.** The values of a query that groups by a column, when the functions compute their results from their arguments alone.  A function
may return a vector for each group; its elements become rows, and the group is repeated for each of them (as the function for the first
column returns them).  All result columns have the same number of cells `N`; it is the number of rows of the result. -/
theorem C66_values (env : TabEnv K T A) (call : G → List A → ExceptT Fail m (List A)) (fn : G → List A → List A)
    (hc : ∀ g y, call g y = pure (fn g y)) (mkGroup : G → ExceptT Fail m (TV A)) (t : Tab K (Col T A)) (ht : GoodTable t) (agg : Agg K G)
    (k : K) (gc : Col T A) (hk : t.dict.at k = some gc) (p : K × K × G) (plan : List (K × K × G)) (c : Col T A) (hcol : t.dict.at p.1 = some c)
    (hplan : aggPlan (t.dict.keys.filter (fun k' => k' ≠ k)) agg = .ok (p :: plan)) (us : List (Col T A)) (N : Nat) (ug : Col T A)
    (hus : Aggregated env fn t (groupRows gc) (p :: plan) us) (hN : ∀ u ∈ us, u.cells.length = N)
    (hug : env.uni (groupsRepeated fn gc c p.2.2) = some ug) :
    tableQuery env call mkGroup t agg (some (.col k)) = pure (grouped k ug (((p :: plan).map (fun q => q.2.1)).zip us) N) := by
  have hmem : k ∈ t.dict.keys := (ht.mem k).2 (by rw [hk]; rfl)
  have hgl : ∀ e ∈ groupsOf gc, ∀ i ∈ e.2, i < t.rows := by
    intro e he i hi
    rw [C66_groups] at he
    obtain ⟨v, _, rfl⟩ := List.mem_map.1 he
    rw [← ht.rows k gc hk]
    exact rowsWith_lt _ _ i hi
  have e1 : (groupsOf gc).map (·.2) = groupRows gc := by
    rw [C66_groups, List.map_map]; rfl
  have e2 : (groupsOf gc).flatMap (fun e => e.1.toList.flatMap (List.replicate (fn p.2.2 (cellsIn c e.2)).length)) = groupsRepeated fn gc c p.2.2 := by
    rw [C66_groups, List.flatMap_map]
    unfold groupsRepeated
    apply List.flatMap_congr
    intro v _
    simp
  cases hus with
  | @cons _ u _ us h1 h2 =>
    obtain ⟨c', hcol', hu⟩ := h1
    rw [hcol] at hcol'
    cases hcol'
    have hul := hN u (by simp)
    simp only [tableQuery, groupOf, if_pos hmem, colAt_ok hk, ofRes_ok, pure_bind, hplan]
    rw [aggCols_pure env call fn hc t ht _ hgl p plan c hcol, e1, e2]
    have : aggUnify env (overGroups fn (groupRows gc) c p.2.2) = .ok u := by unfold aggUnify; rw [hu]
    rw [this, ofRes_ok, pure_bind, if_neg (by simp), if_neg (by simp), hul,
      aggCols_values env call fn hc t ht _ hgl N plan us (by rw [e1]; exact h2) (fun u hu => hN u (by simp [hu]))]
    have : aggUnify env (groupsRepeated fn gc c p.2.2) = .ok ug := by unfold aggUnify; rw [hug]
    simp only [pure_bind, this, ofRes_ok]
    rfl

/-- **C66.** If the functions return different numbers of elements for two columns, the query fails. -/
theorem C66_different_rows (env : TabEnv K T A) (call : G → List A → ExceptT Fail m (List A)) (fn : G → List A → List A)
    (hc : ∀ g y, call g y = pure (fn g y)) (mkGroup : G → ExceptT Fail m (TV A)) (t : Tab K (Col T A)) (ht : GoodTable t) (agg : Agg K G)
    (k : K) (gc : Col T A) (hk : t.dict.at k = some gc) (plan : List (K × K × G))
    (hplan : aggPlan (t.dict.keys.filter (fun k' => k' ≠ k)) agg = .ok plan) (us : List (Col T A))
    (hus : Aggregated env fn t (groupRows gc) plan us) (hN : ∃ u ∈ us, ∃ u' ∈ us, u.cells.length ≠ u'.cells.length) :
    tableQuery env call mkGroup t agg (some (.col k)) = throw .err := by
  have hmem : k ∈ t.dict.keys := (ht.mem k).2 (by rw [hk]; rfl)
  have hgl : ∀ e ∈ groupsOf gc, ∀ i ∈ e.2, i < t.rows := by
    intro e he i hi
    rw [C66_groups] at he
    obtain ⟨v, _, rfl⟩ := List.mem_map.1 he
    rw [← ht.rows k gc hk]
    exact rowsWith_lt _ _ i hi
  have e1 : (groupsOf gc).map (·.2) = groupRows gc := by
    rw [C66_groups, List.map_map]; rfl
  have key : ∀ (plan : List (K × K × G)) (us : List (Col T A)) (N : Nat) (gres : List A) (d : Dict K (Col T A)),
      Aggregated env fn t (groupRows gc) plan us → (∃ u ∈ us, u.cells.length ≠ N) →
      aggCols env call t (groupsOf gc) plan (some N) gres d = throw .err := by
    intro plan
    induction plan with
    | nil => intro us N gres d h hN; cases h; obtain ⟨u, hu, _⟩ := hN; cases hu
    | cons p plan ih =>
      intro us N gres d h hN
      cases h with
      | @cons _ u _ us h1 h2 =>
        obtain ⟨c, hcol, hu⟩ := h1
        rw [aggCols_pure env call fn hc t ht _ hgl p plan c hcol, e1]
        have : aggUnify env (overGroups fn (groupRows gc) c p.2.2) = .ok u := by unfold aggUnify; rw [hu]
        rw [this, ofRes_ok, pure_bind]
        by_cases hul : u.cells.length = N
        · rw [if_neg (by rw [hul]; simp), hul]
          apply ih us N _ _ h2
          obtain ⟨v, hv, hvN⟩ := hN
          rcases List.mem_cons.1 hv with rfl | hv
          · exact absurd hul hvN
          · exact ⟨v, hv, hvN⟩
        · rw [if_pos ⟨rfl, by simpa using Ne.symm hul⟩]
  simp only [tableQuery, groupOf, if_pos hmem, colAt_ok hk, ofRes_ok, pure_bind, hplan]
  cases hus with
  | nil => obtain ⟨u, hu, _⟩ := hN; cases hu
  | @cons p u plan us h1 h2 =>
    obtain ⟨c, hcol, hu⟩ := h1
    rw [aggCols_pure env call fn hc t ht _ hgl p plan c hcol, e1]
    have : aggUnify env (overGroups fn (groupRows gc) c p.2.2) = .ok u := by unfold aggUnify; rw [hu]
    rw [this, ofRes_ok, pure_bind, if_neg (by simp), key plan us u.cells.length _ _ h2, throw_bind']
    obtain ⟨v, hv, w, hw, hvw⟩ := hN
    rcases List.mem_cons.1 hv with rfl | hv
    · rcases List.mem_cons.1 hw with rfl | hw
      · exact absurd rfl hvw
      · exact ⟨w, hw, Ne.symm hvw⟩
    · by_cases hvu : v.cells.length = u.cells.length
      · rcases List.mem_cons.1 hw with rfl | hw
        · exact absurd hvu hvw
        · exact ⟨w, hw, by rw [← hvu]; exact Ne.symm hvw⟩
      · exact ⟨v, hv, hvu⟩

/-- **C66.** The result of a query is a proper table with the group column followed by the aggregated columns, if their names are distinct. -/
theorem C66_table (k : K) (gc : Col T A) (cols : List (K × Col T A)) (n : Nat) (hn : (k :: cols.map (·.1)).Nodup)
    (hr : ∀ e ∈ (k, gc) :: cols, e.2.cells.length = n) :
    GoodTable (grouped k gc cols n) ∧ (grouped k gc cols n).dict.keys = k :: cols.map (·.1) ∧ (grouped k gc cols n).rows = n ∧
      ∀ e ∈ (k, gc) :: cols, (grouped k gc cols n).dict.at e.1 = some e.2 := by
  rw [List.nodup_cons] at hn
  have hat : ∀ x, (grouped k gc cols n).dict.at x = if k = x then some gc else (addCols Dict.empty cols).at x := fun x => mapGet_set _ _ _ _
  have hin : ∀ e ∈ (k, gc) :: cols, (grouped k gc cols n).dict.at e.1 = some e.2 := by
    intro e he
    rw [hat]
    rcases List.mem_cons.1 he with rfl | he
    · rw [if_pos rfl]
    · obtain ⟨x, v⟩ := e
      have hx : x ∈ cols.map (·.1) := List.mem_map.2 ⟨_, he, rfl⟩
      rw [if_neg (fun h => hn.1 (by subst h; exact hx))]
      exact (addCols_at cols Dict.empty hn.2 x).1 v he
  have hout : ∀ x, x ∉ k :: cols.map (·.1) → (grouped k gc cols n).dict.at x = none := by
    intro x hx
    rw [List.mem_cons, not_or] at hx
    rw [hat, if_neg (Ne.symm hx.1), (addCols_at cols Dict.empty hn.2 x).2 hx.2]
    rfl
  have hex : ∀ x, x ∈ k :: cols.map (·.1) → ∃ v, (x, v) ∈ (k, gc) :: cols := by
    intro x hx
    rcases List.mem_cons.1 hx with rfl | hx
    · exact ⟨gc, by simp⟩
    · obtain ⟨e, he, rfl⟩ := List.mem_map.1 hx
      exact ⟨e.2, List.mem_cons_of_mem _ he⟩
  refine ⟨⟨List.nodup_cons.2 hn, ?_, ?_⟩, rfl, rfl, hin⟩
  · intro x
    constructor
    · intro hx
      obtain ⟨v, hv⟩ := hex x hx
      rw [hin _ hv]; rfl
    · intro h
      by_contra hx
      rw [hout x hx] at h
      cases h
  · intro x c hc
    have hx : x ∈ k :: cols.map (·.1) := by
      by_contra hx
      rw [hout x hx] at hc
      cases hc
    obtain ⟨v, hv⟩ := hex x hx
    rw [hin _ hv] at hc
    cases hc
    exact hr _ hv

/-- **C66, counterexample.** A dictionary with one function applied to several columns: all results get the same name, so only the last one
can be read. -/
theorem C66_one_name (keys : List K) (n : K) (g : G) (h : 1 < keys.length) :
    aggPlan keys (.dict ⟨[n], [(n, some g)]⟩) = .ok (keys.map (fun k => (k, n, g))) := by
  have := (C66_plan keys (⟨[n], [(n, some g)]⟩ : Dict K (Option G))).1 (keys.map (fun k => (k, n, g)))
  refine this.2 ⟨keys.map (fun k => (k, n)), .name keys n h, ?_⟩
  unfold PlanOf
  clear this h
  induction keys with
  | nil => exact .nil
  | cons k keys ih => exact .cons ⟨rfl, rfl, by simp [Dict.at, mapGet]⟩ ih

/-! ### Examples -/
namespace TabDemo

/-- two functions: sum and length -/
def sumLen : Bool → List Int → List Int
  | true, l => [l.sum]
  | false, l => [(l.length : Int)]

def callDemo : Bool → List Int → ExceptT Fail Id (List Int) := fun g l => pure (sumLen g l)

/-- `T[;;+/;`b]`: the rows with 5 and the row with 6 -/
example : tableQuery env callDemo (fun _ => throw .err) tab (.fn true) (some (.col (.str "b"))) =
    pure (grouped (.str "b") ⟨(), [5, 6]⟩ [(.str "a", ⟨(), [40, 20]⟩)] 2) :=
  C66_values env callDemo sumLen (fun _ _ => rfl) _ tab tab_good (.fn true) (.str "b") ⟨(), [5, 6, 5]⟩ rfl (.str "a", .str "a", true) []
    ⟨(), [10, 20, 30]⟩ rfl rfl [⟨(), [40, 20]⟩] 2 ⟨(), [5, 6]⟩ (.cons ⟨_, rfl, rfl⟩ .nil) (by decide) rfl

/-- two functions for a single column -/
example : tableQuery env callDemo (fun _ => throw .err) tab (.dict ⟨[.str "s", .str "n"], [(.str "s", some true), (.str "n", some false)]⟩)
    (some (.col (.str "b"))) = pure (grouped (.str "b") ⟨(), [5, 6]⟩ [(.str "s", ⟨(), [40, 20]⟩), (.str "n", ⟨(), [2, 1]⟩)] 2) := rfl

/-- the query in terms of `C66_query` -/
example : ReturnsScalar callDemo (fun g l => (pure ((sumLen g l).headD 0) : ExceptT Fail Id Int)) := by
  intro g l
  cases g <;> rfl

end TabDemo

end Iv

import Verif.Model.Depth
import Verif.Props.NList
import Verif.Props.AliasTake
/-
C95: indexes at depth into dictionaries.
-/
namespace Iv
variable {K A : Type} [DecidableEq K] {m : Type → Type} [Monad m] [LawfulMonad m]

/-- Specification: the value at a path of keys (`none` when one of them is not a key). -/
def DTree.sub : DTree K A → List K → Option (DTree K A)
  | t, [] => some t
  | .dict keys map, k :: ks => if k ∈ keys then (mapGet map k).bind (fun v => v.sub ks) else none
  | .leaf _, _ :: _ => none
  | .lst _, _ :: _ => none
  | .table, _ :: _ => none

/-- Specification: the keys of a dictionary in order. -/
def DTree.keyList : DTree K A → Option (List K)
  | .dict keys _ => some keys
  | _ => none

/-- Specification: `d'` is `d` with the value at the path `ks` replaced by `v`, and nothing else changed: the value at every path that
neither goes through `ks` nor leads to it is the same, and the dictionaries on the way have the same keys in the same order. -/
structure ReplacedAt (d d' : DTree K A) (ks : List K) (v : DTree K A) : Prop where
  new : d'.sub ks = some v
  other : ∀ q, ¬ ks <+: q → ¬ q <+: ks → d'.sub q = d.sub q
  keys : ∀ q, q <+: ks → q ≠ ks → (d'.sub q).map DTree.keyList = (d.sub q).map DTree.keyList

theorem lastPos_spec (key : K) (ks : List K) (i : Nat) (r : Option Nat) :
    (key ∈ ks → ∃ j, lastPos key ks i r = some (i + j) ∧ ks[j]? = some key) ∧ (key ∉ ks → lastPos key ks i r = r) := by
  induction ks generalizing i r with
  | nil => simp [lastPos]
  | cons k ks ih =>
    obtain ⟨h1, h2⟩ := ih (i + 1) (if k = key then some i else r)
    constructor
    · intro hm
      simp only [lastPos]
      by_cases hk : key ∈ ks
      · obtain ⟨j, e, hj⟩ := h1 hk
        exact ⟨j + 1, by rw [e]; congr 1; omega, by simpa using hj⟩
      · have : k = key := by
          rcases List.mem_cons.1 hm with e | e
          · exact e.symm
          · exact absurd e hk
        refine ⟨0, ?_, by simp [this]⟩
        rw [h2 hk, if_pos this]; rfl
    · intro hm
      have hne : ¬ k = key := by rintro rfl; exact hm (by simp)
      simp only [lastPos]
      rw [h2 (fun h => hm (by simp [h])), if_neg hne]

/-- the selection inside the value at a path (proofs only) -/
def selTail (env : DepthEnv K A m) (origin : Int) (v : DTree K A) (rest : List K) : Res (List Int) :=
  match rest with
  | [] => .ok []
  | k' :: ks' => match v with
    | .table => .error .err
    | .dict keys' map' => depthSel env origin (.dict keys' map') (k' :: ks')
    | .lst l => depthListSel env origin l (k' :: ks')
    | .leaf a => env.sel a (k' :: ks')

/-- the assignment inside the value at a path (proofs only) -/
def assignTail (env : DepthEnv K A m) (f : Option (DTree K A → DTree K A → ExceptT Fail m (DTree K A))) (R v : DTree K A) (is : List Int) :
    ExceptT Fail m (DTree K A) :=
  match is with
  | [] => depthNew f v R
  | n' :: ns' => match v with
    | .table => throw .err
    | .dict keys' map' => depthAssign env f R (.dict keys' map') (n' :: ns')
    | .lst l => depthListSet l (n' :: ns') f R
    | .leaf a => do
      let b ← env.set a (n' :: ns') f R
      return .leaf b

/-- replace the value at a path (proofs only) -/
def DTree.put (d : DTree K A) (ks : List K) (w : DTree K A) : DTree K A :=
  match ks with
  | [] => w
  | k :: ks => match d with
    | .dict keys map => match mapGet map k with
      | some v => .dict keys (mapSet map k (v.put ks w))
      | none => .dict keys map
    | t => t

theorem mapGet_mapSet {V : Type} (m : List (K × V)) (k k' : K) (v : V) :
    mapGet (mapSet m k v) k' = if k = k' then some v else mapGet m k' := by
  induction m with
  | nil => simp [mapSet, mapGet]
  | cons p m ih =>
    obtain ⟨a, b⟩ := p
    by_cases h : a = k
    · subst h; simp only [mapSet, if_true, mapGet]
      by_cases h2 : a = k' <;> simp [h2]
    · simp only [mapSet, h, if_false, mapGet, ih]
      by_cases h2 : a = k'
      · subst h2; simp [Ne.symm h]
      · simp [h2]

theorem put_replaced (w : DTree K A) (ks : List K) : ∀ (d v : DTree K A), d.sub ks = some v → ReplacedAt d (d.put ks w) ks w := by
  induction ks with
  | nil =>
    intro d v _
    refine ⟨rfl, fun q h => absurd List.nil_prefix h, ?_⟩
    intro q h1 h2
    exact absurd (List.prefix_nil.1 h1) h2
  | cons k ks ih =>
    intro d v h
    cases d with
    | leaf a => simp [DTree.sub] at h
    | lst l => simp [DTree.sub] at h
    | table => simp [DTree.sub] at h
    | dict keys map =>
      simp only [DTree.sub] at h
      by_cases hk : k ∈ keys
      · rw [if_pos hk] at h
        cases hm : mapGet map k with
        | none => rw [hm] at h; simp at h
        | some t =>
          rw [hm, Option.bind_some] at h
          obtain ⟨h1, h2, h3⟩ := ih t v h
          refine ⟨?_, ?_, ?_⟩
          · simp only [DTree.put, hm, DTree.sub, mapGet_mapSet, if_true, if_pos hk, Option.bind_some]
            exact h1
          · intro q hq1 hq2
            cases q with
            | nil => exact absurd List.nil_prefix hq2
            | cons k' q =>
              simp only [DTree.put, hm, DTree.sub, mapGet_mapSet]
              by_cases e : k = k'
              · subst e
                simp only [if_true, hm, Option.bind_some]
                rw [h2 q (fun h => hq1 (List.cons_prefix_cons.2 ⟨rfl, h⟩)) (fun h => hq2 (List.cons_prefix_cons.2 ⟨rfl, h⟩))]
              · simp only [if_neg e]
          · intro q hq1 hq2
            cases q with
            | nil => simp only [DTree.put, hm, DTree.sub, DTree.keyList, Option.map_some]
            | cons k' q =>
              obtain ⟨rfl, hq⟩ := List.cons_prefix_cons.1 hq1
              simp only [DTree.put, hm, DTree.sub, mapGet_mapSet, if_true, if_pos hk, Option.bind_some]
              exact h3 q hq (by rintro rfl; exact hq2 rfl)
      · rw [if_neg hk] at h; simp at h

omit [Monad m] [LawfulMonad m] in
theorem depthSel_step (env : DepthEnv K A m) (origin : Int) (keys : List K) (map : List (K × DTree K A)) (k : K) (ks : List K)
    (t : DTree K A) (j : Nat) (hm : mapGet map k = some t) (e : lastPos k keys 0 none = some j) :
    depthSel env origin (.dict keys map) (k :: ks) = (selTail env origin t ks).map ((-1 - (j : Int)) :: ·) := by
  rw [depthSel]
  simp only [hm, e]
  cases ks with
  | nil => rfl
  | cons k' ks' =>
    cases t with
    | leaf a => simp only [selTail]; cases env.sel a (k' :: ks') <;> rfl
    | lst l => simp only [selTail]; cases depthListSel env origin l (k' :: ks') <;> rfl
    | table => rfl
    | dict keys' map' => simp only [selTail]; cases depthSel env origin (.dict keys' map') (k' :: ks') <;> rfl

theorem depthAssign_step (env : DepthEnv K A m) (f : Option (DTree K A → DTree K A → ExceptT Fail m (DTree K A))) (R : DTree K A)
    (keys : List K) (map : List (K × DTree K A)) (k : K) (t : DTree K A) (j : Nat) (ns : List Int) (hm : mapGet map k = some t)
    (hj : keys[j]? = some k) :
    depthAssign env f R (.dict keys map) ((-1 - (j : Int)) :: ns) = (do
      let w ← assignTail env f R t ns
      return .dict keys (mapSet map k w)) := by
  have hpos : (-1 - (-1 - (j : Int))).toNat = j := by omega
  rw [depthAssign, if_neg (by omega)]
  simp only [hpos, hj, hm]
  cases ns with
  | nil => rfl
  | cons n' ns' =>
    cases t with
    | leaf a => simp only [assignTail, bind_assoc, pure_bind]
    | lst l => rfl
    | table => rfl
    | dict keys' map' => rfl

theorem sub_cons {d v : DTree K A} {k : K} {ks : List K} (h : d.sub (k :: ks) = some v) :
    ∃ keys map t, d = .dict keys map ∧ k ∈ keys ∧ mapGet map k = some t ∧ t.sub ks = some v := by
  cases d with
  | leaf a => simp [DTree.sub] at h
  | lst l => simp [DTree.sub] at h
  | table => simp [DTree.sub] at h
  | dict keys map =>
    rw [DTree.sub] at h
    by_cases hk : k ∈ keys
    · rw [if_pos hk] at h
      cases hm : mapGet map k with
      | none => rw [hm] at h; simp at h
      | some t => rw [hm, Option.bind_some] at h; exact ⟨keys, map, t, rfl, hk, hm, h⟩
    · rw [if_neg hk] at h; simp at h

theorem depth_run (env : DepthEnv K A m) (origin : Int) (ks : List K) : ∀ (k : K) (d v : DTree K A), d.sub (k :: ks) = some v →
    ∃ negs : List Int, negs ≠ [] ∧ (∀ rest, depthSel env origin d (k :: ks ++ rest) = (selTail env origin v rest).map (negs ++ ·)) ∧
      ∀ f R is, depthAssign env f R d (negs ++ is) = (do
        let w ← assignTail env f R v is
        return d.put (k :: ks) w) := by
  induction ks with
  | nil =>
    intro k d v h
    obtain ⟨keys, map, t, rfl, hk, hm, h⟩ := sub_cons h
    rw [DTree.sub, Option.some.injEq] at h
    subst h
    obtain ⟨j, e, hj⟩ := (lastPos_spec k keys 0 none).1 hk
    rw [Nat.zero_add] at e
    refine ⟨[-1 - (j : Int)], by simp, ?_, ?_⟩
    · intro rest
      rw [List.cons_append, List.nil_append, depthSel_step env origin keys map k rest t j hm e]
      rfl
    · intro f R is
      rw [List.cons_append, List.nil_append, depthAssign_step env f R keys map k t j is hm hj]
      simp only [DTree.put, hm]
  | cons k2 ks ih =>
    intro k d v h
    obtain ⟨keys, map, t, rfl, hk, hm, h⟩ := sub_cons h
    obtain ⟨negs, hne, h1, h2⟩ := ih k2 t v h
    obtain ⟨keys', map', t', rfl, -, -, -⟩ := sub_cons h
    obtain ⟨j, e, hj⟩ := (lastPos_spec k keys 0 none).1 hk
    rw [Nat.zero_add] at e
    refine ⟨(-1 - (j : Int)) :: negs, by simp, ?_, ?_⟩
    · intro rest
      have := h1 rest
      rw [List.cons_append, depthSel_step env origin keys map k _ _ j hm e]
      have e2 : selTail env origin (.dict keys' map') (k2 :: ks ++ rest) = depthSel env origin (.dict keys' map') (k2 :: ks ++ rest) := rfl
      rw [e2, this]
      cases selTail env origin v rest <;> rfl
    · intro f R is
      have := h2 f R is
      rw [List.cons_append, depthAssign_step env f R keys map k _ j _ hm hj]
      have e2 : assignTail env f R (.dict keys' map') (negs ++ is) = depthAssign env f R (.dict keys' map') (negs ++ is) := by
        cases hn : negs ++ is with
        | nil => exact absurd (List.append_eq_nil_iff.1 hn).1 hne
        | cons n' ns' => rfl
      rw [e2, this]
      simp only [bind_assoc, pure_bind]
      refine congrArg _ (funext fun w => ?_)
      conv => rhs; rw [DTree.put]
      simp only [hm]

/-- reading inside the value at a path (proofs only) -/
def getTail (env : DepthEnv K A m) (origin : Int) (v : DTree K A) (rest : List K) : Res (DTree K A) :=
  match rest with
  | [] => .ok v
  | k' :: ks' => match v with
    | .table => .error .err
    | .dict keys' map' => depthGet env origin (.dict keys' map') (k' :: ks')
    | .lst l => match (k' :: ks').mapM env.toInt with
      | none => .error .err
      | some ints => (listIndex origin ints (.list l)).map DTree.ofN
    | .leaf a => (env.get a (k' :: ks')).map DTree.leaf

omit [Monad m] [LawfulMonad m] in
theorem depthGet_step (env : DepthEnv K A m) (origin : Int) (keys : List K) (map : List (K × DTree K A)) (k : K) (ks : List K)
    (t : DTree K A) (hm : mapGet map k = some t) :
    depthGet env origin (.dict keys map) (k :: ks) = getTail env origin t ks := by
  rw [depthGet]
  simp only [hm]
  cases ks with
  | nil => rfl
  | cons k' ks' => cases t <;> rfl

omit [Monad m] [LawfulMonad m] in
theorem depth_get (env : DepthEnv K A m) (origin : Int) (ks : List K) : ∀ (k : K) (d v : DTree K A), d.sub (k :: ks) = some v →
    ∀ rest, depthGet env origin d (k :: ks ++ rest) = getTail env origin v rest := by
  induction ks with
  | nil =>
    intro k d v h rest
    obtain ⟨keys, map, t, rfl, hk, hm, h⟩ := sub_cons h
    rw [DTree.sub, Option.some.injEq] at h
    subst h
    exact depthGet_step env origin keys map k _ _ hm
  | cons k2 ks ih =>
    intro k d v h rest
    obtain ⟨keys, map, t, rfl, hk, hm, h⟩ := sub_cons h
    have := ih k2 t v h rest
    obtain ⟨keys', map', t', rfl, -, -, -⟩ := sub_cons h
    rw [List.cons_append, depthGet_step env origin keys map k _ _ hm]
    exact this

/-- the assignment after a path of keys -/
theorem depth_assign (env : DepthEnv K A m) (origin : Int) (f : Option (DTree K A → DTree K A → ExceptT Fail m (DTree K A)))
    (d v R : DTree K A) (k : K) (ks rest : List K) (h : d.sub (k :: ks) = some v) :
    dictDepthAssign env origin f d (k :: ks ++ rest) R = (do
      let is ← ofRes (selTail env origin v rest)
      let w ← assignTail env f R v is
      return d.put (k :: ks) w) := by
  obtain ⟨negs, hne, h1, h2⟩ := depth_run env origin ks k d v h
  rw [dictDepthAssign, h1 rest]
  cases hs : selTail env origin v rest with
  | error e =>
    show (ofRes (.error e) >>= _) = _
    rw [ofRes_bind_error, ofRes_bind_error]
  | ok is =>
    show (ofRes (.ok (negs ++ is)) >>= _) = _
    rw [ofRes_ok, ofRes_ok, pure_bind, pure_bind, h2]

omit [Monad m] [LawfulMonad m] in
/-- C95: `D[k;l;…]` with keys only is the value at that path of keys. -/
theorem C95_read (env : DepthEnv K A m) (origin : Int) (d v : DTree K A) (k : K) (ks : List K) (h : d.sub (k :: ks) = some v) :
    depthGet env origin d (k :: ks) = .ok v := by
  have := depth_get env origin ks k d v h []
  rw [List.append_nil] at this
  rw [this]; rfl

omit [Monad m] [LawfulMonad m] in
/-- C95: when the value at a path of keys is a list, the indexes after the keys are a path in that list: the item there is the result, and
indexes that are no path of the list are rejected. -/
theorem C95_read_list (env : DepthEnv K A m) (origin : Int) (d : DTree K A) (l : List (NList (DTree K A))) (k : K) (ks rest : List K)
    (ints : List Int) (h : d.sub (k :: ks) = some (.lst l)) (hr : rest ≠ []) (hi : rest.mapM env.toInt = some ints) :
    (∀ p, PathOf (.list l) (ints.map (· - origin)) p → ∃ v, (NList.list l).item p = some v ∧
      depthGet env origin d (k :: ks ++ rest) = .ok (DTree.ofN v)) ∧
    ((¬ ∃ p, PathOf (.list l) (ints.map (· - origin)) p) → ∃ e, depthGet env origin d (k :: ks ++ rest) = .error e) := by
  have e := depth_get env origin ks k d _ h rest
  obtain ⟨k', ks', rfl⟩ := List.exists_cons_of_ne_nil hr
  have hne : ints ≠ [] := by
    rintro rfl
    have := mapM_opt_length hi
    simp at this
  obtain ⟨h1, h2⟩ := C41_index origin ints hne (NList.list l)
  constructor
  · intro p hp
    obtain ⟨v, hv, hl⟩ := h1 p hp
    refine ⟨v, hv, ?_⟩
    rw [e]; simp only [getTail, hi, hl]; rfl
  · intro hp
    obtain ⟨x, hx⟩ := h2 hp
    exact ⟨x, by rw [e]; simp only [getTail, hi, hx]; rfl⟩

omit [Monad m] [LawfulMonad m] in
/-- C95: when the value at a path of keys is an array, the indexes after the keys index that array. -/
theorem C95_read_array (env : DepthEnv K A m) (origin : Int) (d : DTree K A) (a : A) (k : K) (ks rest : List K)
    (h : d.sub (k :: ks) = some (.leaf a)) (hr : rest ≠ []) :
    depthGet env origin d (k :: ks ++ rest) = (env.get a rest).map DTree.leaf := by
  have e := depth_get env origin ks k d _ h rest
  obtain ⟨k', ks', rfl⟩ := List.exists_cons_of_ne_nil hr
  rw [e]; rfl

/-- C95: a name that is not a key of the dictionary at the path before it is rejected, for reading and for assignment: an assignment at
depth never adds a key. -/
theorem C95_missing (env : DepthEnv K A m) (origin : Int) (f : Option (DTree K A → DTree K A → ExceptT Fail m (DTree K A)))
    (d R : DTree K A) (ks rest : List K) (k : K) (keys : List K) (map : List (K × DTree K A)) (h : d.sub ks = some (.dict keys map))
    (hk : mapGet map k = none) :
    depthGet env origin d (ks ++ k :: rest) = .error .err ∧ dictDepthAssign env origin f d (ks ++ k :: rest) R = throw .err := by
  cases ks with
  | nil =>
    rw [DTree.sub, Option.some.injEq] at h
    subst h
    constructor
    · rw [List.nil_append, depthGet]; simp only [hk]
    · rw [List.nil_append, dictDepthAssign, depthSel]
      simp only [hk]
      exact ofRes_bind_error _ _
  | cons k0 ks =>
    constructor
    · rw [depth_get env origin ks k0 d _ h]
      simp only [getTail]
      rw [depthGet]; simp only [hk]
    · rw [depth_assign env origin f d _ R k0 ks _ h]
      simp only [selTail]
      rw [depthSel]; simp only [hk]
      exact ofRes_bind_error _ _

/-- C95: tables inside a dictionary cannot be indexed at depth. -/
theorem C95_table (env : DepthEnv K A m) (origin : Int) (f : Option (DTree K A → DTree K A → ExceptT Fail m (DTree K A)))
    (d R : DTree K A) (k : K) (ks rest : List K) (h : d.sub (k :: ks) = some .table) (hr : rest ≠ []) :
    depthGet env origin d (k :: ks ++ rest) = .error .err ∧ dictDepthAssign env origin f d (k :: ks ++ rest) R = throw .err := by
  obtain ⟨k', ks', rfl⟩ := List.exists_cons_of_ne_nil hr
  constructor
  · rw [depth_get env origin ks k d _ h]; rfl
  · rw [depth_assign env origin f d _ R k ks _ h]
    exact ofRes_bind_error _ _

/-- C95: `D[k;l;…]←R` with keys only: afterwards the value at that path is `R`, all other values are the same, and no keys are added,
removed or moved. -/
theorem C95_assign (env : DepthEnv K A m) (origin : Int) (d v R : DTree K A) (k : K) (ks : List K) (h : d.sub (k :: ks) = some v) :
    ∃ d', dictDepthAssign env origin none d (k :: ks) R = pure d' ∧ ReplacedAt d d' (k :: ks) R := by
  refine ⟨d.put (k :: ks) R, ?_, put_replaced R _ d v h⟩
  have := depth_assign env origin none d v R k ks [] h
  rw [List.append_nil] at this
  rw [this]
  simp only [selTail, assignTail, depthNew, ofRes_ok, pure_bind]

/-- C95: `D[k;l;…]f←R` assigns `old f R`, where `old` is the value at the path; when `f` fails, nothing is assigned. -/
theorem C95_modify (env : DepthEnv K A m) (origin : Int) (f : DTree K A → DTree K A → ExceptT Fail m (DTree K A)) (d v R : DTree K A)
    (k : K) (ks : List K) (h : d.sub (k :: ks) = some v) :
    dictDepthAssign env origin (some f) d (k :: ks) R = (do
      let w ← f v R
      dictDepthAssign env origin none d (k :: ks) w) := by
  have h1 := depth_assign env origin (some f) d v R k ks [] h
  have h2 := fun w => depth_assign env origin none d v w k ks [] h
  simp only [List.append_nil] at h1 h2
  rw [h1]
  simp only [h2, selTail, assignTail, depthNew, ofRes_ok, pure_bind]

/-- C95: with a list at the path of keys, `D[k;l;…;i;j;…]←R`: afterwards the list has `R` at that path of the list, its other items and
all its lengths are kept, and so is everything else in the dictionary. -/
theorem C95_assign_list (env : DepthEnv K A m) (origin : Int) (d R : DTree K A) (l : List (NList (DTree K A))) (k : K) (ks rest : List K)
    (ints : List Int) (p : List Nat) (h : d.sub (k :: ks) = some (.lst l)) (hr : rest ≠ []) (hi : rest.mapM env.toInt = some ints)
    (hp : PathOf (.list l) (ints.map (· - origin)) p) :
    ∃ d' l', dictDepthAssign env origin none d (k :: ks ++ rest) R = pure d' ∧ ReplacedAt d d' (k :: ks) (.lst l') ∧
      (NList.list l').item p = some R.toN ∧
      (∀ q, ¬ p <+: q → ¬ q <+: p → (NList.list l').item q = (NList.list l).item q) ∧
      (∀ q, q <+: p → q ≠ p → ((NList.list l').item q).map NList.len = ((NList.list l).item q).map NList.len) := by
  obtain ⟨k', ks', rfl⟩ := List.exists_cons_of_ne_nil hr
  obtain ⟨e1, e2⟩ := PathOf.item _ hp
  have hpne : p ≠ [] := by
    rintro rfl
    have := mapM_opt_length hi
    rw [List.length_nil, List.length_map, this] at e2
    simp at e2
  obtain ⟨y, g1, g2, _, g3, g4⟩ := (C41_set p hpne (.list l) R.toN).1 e1
  have hy : ∃ l', y = .list l' := by
    have := g4 [] List.nil_prefix (Ne.symm hpne)
    simp only [NList.item, Option.map_some, Option.some.injEq] at this
    cases y with
    | leaf t => simp [NList.len] at this
    | list l' => exact ⟨l', rfl⟩
  obtain ⟨l', rfl⟩ := hy
  refine ⟨d.put (k :: ks) (.lst l'), l', ?_, put_replaced _ _ d _ h, g2, g3, g4⟩
  rw [depth_assign env origin none d _ R k ks _ h]
  have hs : selTail env origin (.lst l) (k' :: ks') = .ok (p.map Int.ofNat) := by
    simp only [selTail, depthListSel, hi, (listPath_iff _ _ p).2 hp]; rfl
  rw [hs, ofRes_ok, pure_bind]
  obtain ⟨n, p', rfl⟩ := List.exists_cons_of_ne_nil hpne
  have hl : depthListSet l ((n :: p').map Int.ofNat) none R = (pure (.lst l') : ExceptT Fail m (DTree K A)) := by
    have hany : (((n :: p').map Int.ofNat).any (· < 0)) = false := by
      rw [List.any_eq_false]
      intro x hx
      obtain ⟨y, _, rfl⟩ := List.mem_map.1 hx
      simp
    have hmap : ((n :: p').map Int.ofNat).map Int.toNat = n :: p' := by
      rw [List.map_map]
      exact (List.map_congr_left (fun x _ => by simp)).trans (List.map_id _)
    simp only [depthListSet, hany, hmap, g1, ofRes_ok, pure_bind, DTree.ofN]
    rfl
  simp only [List.map_cons, assignTail] at hl ⊢
  rw [hl, pure_bind]

/-- C95: with a list at the path of keys, `D[k;l;…;i;j;…]f←R` assigns `old f R`, where `old` is the item of the list; when `f` fails,
nothing is assigned. -/
theorem C95_modify_list (env : DepthEnv K A m) (origin : Int) (f : DTree K A → DTree K A → ExceptT Fail m (DTree K A)) (d R : DTree K A)
    (l : List (NList (DTree K A))) (old : NList (DTree K A)) (k : K) (ks rest : List K) (ints : List Int) (p : List Nat)
    (h : d.sub (k :: ks) = some (.lst l)) (hr : rest ≠ []) (hi : rest.mapM env.toInt = some ints)
    (hp : PathOf (.list l) (ints.map (· - origin)) p) (hold : (NList.list l).item p = some old) :
    dictDepthAssign env origin (some f) d (k :: ks ++ rest) R = (do
      let w ← f (DTree.ofN old) R
      dictDepthAssign env origin none d (k :: ks ++ rest) w) := by
  obtain ⟨k', ks', rfl⟩ := List.exists_cons_of_ne_nil hr
  obtain ⟨e1, e2⟩ := PathOf.item _ hp
  have hpne : p ≠ [] := by
    rintro rfl
    have := mapM_opt_length hi
    rw [List.length_nil, List.length_map, this] at e2
    simp at e2
  have hs : selTail env origin (.lst l) (k' :: ks') = .ok (p.map Int.ofNat) := by
    simp only [selTail, depthListSel, hi, (listPath_iff _ _ p).2 hp]; rfl
  have h1 := depth_assign env origin (some f) d _ R k ks (k' :: ks') h
  have h2 := fun w => depth_assign env origin none d _ w k ks (k' :: ks') h
  rw [h1]
  simp only [h2, hs, ofRes_ok, pure_bind]
  obtain ⟨n, p', rfl⟩ := List.exists_cons_of_ne_nil hpne
  have hany : (((n :: p').map Int.ofNat).any (· < 0)) = false := by
    rw [List.any_eq_false]
    intro x hx
    obtain ⟨y, _, rfl⟩ := List.mem_map.1 hx
    simp
  have hmap : ((n :: p').map Int.ofNat).map Int.toNat = n :: p' := by
    rw [List.map_map]
    exact (List.map_congr_left (fun x _ => by simp)).trans (List.map_id _)
  have hg := (C41_get (.list l) (n :: p') hpne).1 old hold
  have hset : ∀ g w, depthListSet l ((n :: p').map Int.ofNat) g w = (match g with
      | none => do
        let y ← ofRes (setDeep (.list l) (n :: p') w.toN)
        return DTree.ofN y
      | some f => do
        let v ← ofRes (getDeep (.list l) (n :: p'))
        let w ← f (DTree.ofN v) w
        let y ← ofRes (setDeep (.list l) (n :: p') w.toN)
        return DTree.ofN y : ExceptT Fail m (DTree K A)) := by
    intro g w
    simp only [depthListSet, hany, hmap]
    rfl
  simp only [List.map_cons, assignTail] at hset ⊢
  simp only [hset, hg, ofRes_ok, pure_bind, bind_assoc]

/-- C95: with an array at the path of keys, `D[k;l;…;i;j;…]f←R` is the indexed (modified) assignment to that array, at the positions its
index selects; everything else in the dictionary is kept.  If the assignment to the array fails, so does the whole. -/
theorem C95_assign_array (env : DepthEnv K A m) (origin : Int) (f : Option (DTree K A → DTree K A → ExceptT Fail m (DTree K A)))
    (d R : DTree K A) (a : A) (k : K) (ks rest : List K) (is : List Int) (h : d.sub (k :: ks) = some (.leaf a)) (hr : rest ≠ [])
    (hs : env.sel a rest = .ok is) (hne : is ≠ []) :
    ∃ g : A → DTree K A, dictDepthAssign env origin f d (k :: ks ++ rest) R = (do let b ← env.set a is f R; return g b) ∧
      ∀ b, ReplacedAt d (g b) (k :: ks) (.leaf b) := by
  obtain ⟨k', ks', rfl⟩ := List.exists_cons_of_ne_nil hr
  refine ⟨fun b => d.put (k :: ks) (.leaf b), ?_, fun b => put_replaced _ _ d _ h⟩
  rw [depth_assign env origin f d _ R k ks _ h]
  simp only [selTail, hs, ofRes_ok, pure_bind]
  obtain ⟨n, ns, rfl⟩ := List.exists_cons_of_ne_nil hne
  simp only [assignTail, bind_assoc, pure_bind]

/-- C95, exception (a defect of the code): when the index selects no element of the array, the array is not left as it is: the value at
the path of keys is replaced as a whole. -/
theorem C95_empty_selection (env : DepthEnv K A m) (origin : Int) (d R : DTree K A) (a : A) (k : K) (ks rest : List K)
    (h : d.sub (k :: ks) = some (.leaf a)) (hr : rest ≠ []) (hs : env.sel a rest = .ok []) :
    ∃ d', dictDepthAssign env origin none d (k :: ks ++ rest) R = pure d' ∧ ReplacedAt d d' (k :: ks) R := by
  obtain ⟨k', ks', rfl⟩ := List.exists_cons_of_ne_nil hr
  refine ⟨d.put (k :: ks) R, ?_, put_replaced R _ d _ h⟩
  rw [depth_assign env origin none d _ R k ks _ h]
  simp only [selTail, hs, ofRes_ok, pure_bind, assignTail, depthNew]

namespace DepthDemo
/-- keys are numbers; arrays are vectors, indexed by one number -/
def env : DepthEnv Nat (List Nat) Id where
  toInt k := some k
  sel a
    | [k] => if k = 99 then .ok [] else if 0 < k ∧ k ≤ a.length then .ok [(k : Int) - 1] else .error .err
    | _ => .error .err
  get a
    | [k] => match a[k - 1]? with
      | some x => .ok [x]
      | none => .error .err
    | _ => .error .err
  set a is _ R := match R with
    | .leaf [x] => pure (is.foldl (fun a i => a.set i.toNat x) a)
    | _ => throw .err

def d : DTree Nat (List Nat) := .dict [1, 2] [(1, .leaf [7]), (2, .dict [5, 6] [(5, .leaf [10, 20, 30]), (6, .lst [.leaf (.leaf [1]), .list [.leaf (.leaf [2])]])])]

example : d.sub [2, 5] = some (.leaf [10, 20, 30]) := rfl
example : depthGet env 1 d [2, 5, 2] = .ok (.leaf [20]) := by simp [depthGet, d, env, mapGet]; rfl
example : d.sub [2, 6] = some (.lst [.leaf (.leaf [1]), .list [.leaf (.leaf [2])]]) := rfl
example : PathOf (.list [.leaf (.leaf [1]), .list [.leaf (.leaf [2])]] : NList (DTree Nat (List Nat))) [1, 0] [1, 0] :=
  ⟨Or.inl rfl, _, rfl, Or.inl rfl, _, rfl, trivial⟩
example : env.sel [10, 20, 30] [2] = .ok [1] := rfl
example : env.sel [10, 20, 30] [99] = .ok [] := rfl
example : d.sub [2] = some (.dict [5, 6] [(5, .leaf [10, 20, 30]), (6, .lst [.leaf (.leaf [1]), .list [.leaf (.leaf [2])]])]) := rfl
end DepthDemo

end Iv

import Verif.Model.Dict
import Verif.Props.Assign
/-
C40 dictionaries.
-/
namespace Iv
variable {K V : Type} [DecidableEq K] {m : Type → Type} [Monad m] [LawfulMonad m]

theorem mapGet_set (d : List (K × V)) (k k' : K) (v : V) : mapGet (mapSet d k v) k' = if k = k' then some v else mapGet d k' := by
  induction d with
  | nil => simp [mapSet, mapGet]
  | cons e d ih =>
    obtain ⟨k0, v0⟩ := e
    simp only [mapSet]
    by_cases h0 : k0 = k
    · subst h0
      rw [if_pos rfl]
      by_cases h : k0 = k' <;> simp [mapGet, h]
    · rw [if_neg h0]
      simp only [mapGet, ih]
      by_cases h : k0 = k'
      · subst h; simp [Ne.symm h0]
      · simp [h]

/-- Specification: `d` holds what a history of assignments `h` (oldest first) leaves behind: a lookup gives the value assigned last, the
keys are the assigned keys, in the order of their first assignments (in particular without repetition). -/
def Holds (d : Dict K V) (h : List (K × V)) : Prop :=
  (∀ k, d.at k = ((h.filter (fun e => e.1 = k)).getLast?).map Prod.snd) ∧
  (∀ k, k ∈ d.keys ↔ k ∈ h.map Prod.fst) ∧
  d.keys.Pairwise (fun a b => (h.map Prod.fst).idxOf a < (h.map Prod.fst).idxOf b)

theorem Holds.mem_iff {d : Dict K V} {h : List (K × V)} (hd : Holds d h) (k : K) : k ∈ d.keys ↔ (d.at k).isSome = true := by
  rw [hd.2.1 k, hd.1 k]
  have hsome : ∀ l : List (K × V), (l.getLast?).isSome = true ↔ l ≠ [] := by
    intro l; cases l <;> simp [List.getLast?]
  simp only [Option.isSome_map, hsome, List.mem_map]
  constructor
  · rintro ⟨e, he, rfl⟩
    exact List.ne_nil_of_mem (a := e) (List.mem_filter.2 ⟨he, by simp⟩)
  · intro hne
    obtain ⟨e, he⟩ := List.exists_mem_of_ne_nil _ hne
    obtain ⟨h1, h2⟩ := List.mem_filter.1 he
    exact ⟨e, h1, by simpa using h2⟩

theorem Holds.nodup {d : Dict K V} {h : List (K × V)} (hd : Holds d h) : d.keys.Nodup :=
  hd.2.2.imp (fun hlt => by intro he; subst he; omega)

theorem holds_empty : Holds (Dict.empty : Dict K V) [] := by
  refine ⟨by intro k; rfl, by intro k; simp [Dict.empty], by simp [Dict.empty]⟩

/-- C40: `Set` adds one assignment to the history. -/
theorem C40_set (d : Dict K V) (h : List (K × V)) (hd : Holds d h) (k : K) (v : V) : Holds (d.set k v) (h ++ [(k, v)]) := by
  have hmem := hd.mem_iff
  obtain ⟨h1, h2, h3⟩ := hd
  refine ⟨?_, ?_, ?_⟩
  · intro k'
    show mapGet (mapSet d.map k v) k' = _
    rw [mapGet_set]
    by_cases hk : k = k'
    · subst hk; simp [List.filter_append]
    · rw [if_neg hk, List.filter_append]
      simp only [List.filter_cons, hk, decide_false, List.filter_nil, Bool.false_eq_true, if_false, List.append_nil]
      exact h1 k'
  · intro k'
    simp only [List.map_append, List.map_cons, List.map_nil, List.mem_append, List.mem_singleton, ← h2]
    unfold Dict.set
    by_cases hn : (mapGet d.map k).isNone = true
    · simp [hn]
    · simp only [hn, Bool.false_eq_true, if_false]
      have : k ∈ d.keys := by
        rw [hmem]
        unfold Dict.at
        cases hg : mapGet d.map k with
        | none => simp [hg] at hn
        | some _ => rfl
      constructor
      · exact Or.inl
      · rintro (h | rfl)
        · exact h
        · exact this
  · have hold : ∀ a, a ∈ d.keys → ((h ++ [(k, v)]).map Prod.fst).idxOf a = (h.map Prod.fst).idxOf a := by
      intro a ha
      rw [List.map_append, List.idxOf_append, if_pos ((h2 a).1 ha)]
    unfold Dict.set
    by_cases hn : (mapGet d.map k).isNone = true
    · simp only [hn, if_true]
      rw [List.pairwise_append]
      refine ⟨h3.imp_of_mem ?_, by simp, ?_⟩
      · intro a b ha hb hlt; rw [hold a ha, hold b hb]; exact hlt
      · intro a ha b hb
        simp only [List.mem_singleton] at hb
        subst hb
        have hnk : b ∉ h.map Prod.fst := by
          rw [← h2, hmem]
          unfold Dict.at
          cases hg : mapGet d.map b with
          | none => simp
          | some _ => simp [hg] at hn
        rw [hold a ha, List.map_append, List.idxOf_append, if_neg hnk]
        have := List.idxOf_lt_length_of_mem ((h2 a).1 ha)
        omega
    · simp only [hn, Bool.false_eq_true, if_false]
      exact h3.imp_of_mem (fun ha hb hlt => by rw [hold _ ha, hold _ hb]; exact hlt)

/-- C40: after any sequence of assignments to an empty dictionary. -/
theorem C40_history (h : List (K × V)) : Holds (h.foldl (fun d e => d.set e.1 e.2) (Dict.empty : Dict K V)) h := by
  have gen : ∀ (h h0 : List (K × V)) (d : Dict K V), Holds d h0 → Holds (h.foldl (fun d e => d.set e.1 e.2) d) (h0 ++ h) := by
    intro h
    induction h with
    | nil => intro h0 d hd; simpa using hd
    | cons e h ih =>
      intro h0 d hd
      have := ih _ _ (C40_set d h0 hd e.1 e.2)
      simpa using this
  simpa using gen h [] _ holds_empty

theorem keyPos_spec (ks : List K) : ∀ (i : Nat) (p : List (K × Nat)), ks.Nodup → (∀ k ∈ ks, mapGet p k = none) →
    (∀ k, mapGet (keyPos ks i p) k = if k ∈ ks then some (i + ks.idxOf k) else mapGet p k) ∧ (keyPos ks i p).length = p.length + ks.length := by
  induction ks with
  | nil => intro i p _ _; exact ⟨by intro k; simp [keyPos], by simp [keyPos]⟩
  | cons k ks ih =>
    intro i p hn hp
    rw [List.nodup_cons] at hn
    have hlen : ∀ (p : List (K × Nat)), mapGet p k = none → (mapSet p k i).length = p.length + 1 := by
      intro p
      induction p with
      | nil => intro _; rfl
      | cons e p ihp =>
        intro h
        simp only [mapGet] at h
        split at h
        · simp at h
        · rename_i h0
          simp only [mapSet, if_neg h0, List.length_cons, ihp h]
    obtain ⟨e1, e2⟩ := ih (i + 1) (mapSet p k i) hn.2 (by
      intro k' hk'
      rw [mapGet_set, if_neg (by intro h; subst h; exact hn.1 hk')]
      exact hp k' (List.mem_cons_of_mem _ hk'))
    refine ⟨?_, ?_⟩
    · intro k'
      simp only [keyPos, e1, List.mem_cons]
      by_cases h : k' = k
      · subst h
        rw [if_neg hn.1, mapGet_set, if_pos rfl]
        simp
      · by_cases h' : k' ∈ ks
        · simp only [h', or_true, if_true, List.idxOf_cons, beq_false_of_ne (Ne.symm h), cond_false]
          congr 1; omega
        · simp only [h, h', or_false, if_false, mapGet_set, if_neg (Ne.symm h)]
    · simp only [keyPos, e2, List.length_cons, hlen p (hp k (by simp))]
      omega

theorem keyPos_get {d : Dict K V} (hn : d.keys.Nodup) (k : K) :
    mapGet (keyPos d.keys 0 []) k = (if k ∈ d.keys then some (d.keys.idxOf k) else none) ∧ (keyPos d.keys 0 []).length = d.keys.length := by
  obtain ⟨e1, e2⟩ := keyPos_spec d.keys 0 [] hn (by intro _ _; rfl)
  exact ⟨by rw [e1]; simp [mapGet], by simpa using e2⟩

/-- C40: `D[k]←v` is one assignment, whether the key exists or not, and whatever the history of `D` is; `v` may be any value, also an array. -/
theorem C40_assign_key (e : V) (d : Dict K V) (h : List (K × V)) (hd : Holds d h) (k : K) (R : DVal V) :
    ∃ d', dictAssign (m := m) e none d (.one k) R = pure d' ∧ Holds d' (h ++ [(k, R.val)]) := by
  obtain ⟨e1, e2⟩ := keyPos_get hd.nodup k
  have hone : ∀ (d : Dict K V) i, assignObject (m := m) none d [i] R = assignObjLoop d.keys none [(i, R.val)] d := by
    intro d i; cases R <;> simp [assignObject, DVal.val]
  simp only [dictAssign, objSelection]
  by_cases hk : k ∈ d.keys
  · rw [if_pos hk] at e1
    simp only [e1, hone, assignObjLoop]
    rw [List.getElem?_eq_getElem (List.idxOf_lt_length_of_mem hk), List.getElem_idxOf]
    exact ⟨_, by simp, C40_set d h hd k R.val⟩
  · rw [if_neg hk] at e1
    simp only [e1, hone, e2, assignObjLoop]
    have hnone : mapGet d.map k = none := by
      have := mt (hd.mem_iff k).2 hk
      simpa [Dict.at] using this
    have hkeys : (d.set k e).keys = d.keys ++ [k] := by simp [Dict.set, hnone]
    rw [hkeys, List.getElem?_append_right (Nat.le_refl _)]
    simp only [Nat.sub_self, List.getElem?_cons_zero]
    have : (d.set k e).set k R.val = d.set k R.val := by
      unfold Dict.set
      simp only [mapGet_set, if_pos rfl, Option.isNone_some, Bool.false_eq_true, if_false]
      congr 1
      generalize d.map = p
      induction p with
      | nil => simp [mapSet]
      | cons q p ih =>
        simp only [mapSet]
        by_cases hq : q.1 = k
        · simp [hq, mapSet]
        · simp only [if_neg hq, mapSet, ih]
    rw [pure_bind, this]
    exact ⟨_, rfl, C40_set d h hd k R.val⟩

/-- C40: a modified assignment `D[k]f←v` to an existing key assigns `old f v`; an error of `f` leaves no new dictionary. -/
theorem C40_modified (e : V) (f : V → V → ExceptT Fail m V) (d : Dict K V) (h : List (K × V)) (hd : Holds d h) (k : K) (old : V) (hk : d.at k = some old) (R : DVal V) :
    dictAssign e (some f) d (.one k) R = (do let v ← f old R.val; pure (d.set k v)) := by
  obtain ⟨e1, e2⟩ := keyPos_get hd.nodup k
  have hmem : k ∈ d.keys := by rw [hd.mem_iff, hk]; rfl
  have hone : ∀ (d : Dict K V) i, assignObject (m := m) (some f) d [i] R = assignObjLoop d.keys (some f) [(i, R.val)] d := by
    intro d i; cases R <;> simp [assignObject, DVal.val]
  rw [if_pos hmem] at e1
  simp only [dictAssign, objSelection, e1, hone, assignObjLoop]
  rw [List.getElem?_eq_getElem (List.idxOf_lt_length_of_mem hmem), List.getElem_idxOf]
  simp only [hk]

/-- C40: looking up a key: the value assigned last; a key that was never assigned is rejected. -/
theorem C40_index (d : Dict K V) (h : List (K × V)) (hd : Holds d h) (k : K) :
    objIndex d (.one k) = match (h.filter (fun e => e.1 = k)).getLast? with
      | some e => .ok (.inl e.2)
      | none => .error .err := by
  unfold objIndex
  simp only [hd.1 k]
  cases (h.filter (fun e => e.1 = k)).getLast? <;> rfl


/-- a dictionary whose key list has no repetition and agrees with its map -/
def Dict.Ok (d : Dict K V) : Prop := d.keys.Nodup ∧ ∀ k, k ∈ d.keys ↔ (d.at k).isSome = true

theorem set_at (d : Dict K V) (k k' : K) (v : V) : (d.set k v).at k' = if k = k' then some v else d.at k' := mapGet_set d.map k k' v

theorem set_keys {d : Dict K V} (hd : d.Ok) (k : K) (v : V) : (d.set k v).keys = if k ∈ d.keys then d.keys else d.keys ++ [k] := by
  have := hd.2 k
  unfold Dict.set
  unfold Dict.at at this
  by_cases hk : k ∈ d.keys
  · have h1 := this.1 hk
    cases hg : mapGet d.map k with
    | none => rw [hg] at h1; simp at h1
    | some x => simp [hk]
  · have h1 := mt this.2 hk
    cases hg : mapGet d.map k with
    | none => simp [hk]
    | some x => rw [hg] at h1; simp at h1

theorem set_ok {d : Dict K V} (hd : d.Ok) (k : K) (v : V) : (d.set k v).Ok := by
  have hk := set_keys hd k v
  refine ⟨?_, ?_⟩
  · rw [hk]
    split
    · exact hd.1
    · rename_i h
      rw [List.nodup_append]
      exact ⟨hd.1, by simp, by intro a ha b hb; simp only [List.mem_singleton] at hb; subst hb; intro he; subst he; exact h ha⟩
  · intro k'
    rw [hk, set_at]
    by_cases h : k = k'
    · subst h
      simp only [if_pos, Option.isSome_some, iff_true]
      split
      · assumption
      · simp
    · rw [if_neg h, ← hd.2 k']
      split
      · rfl
      · simp [Ne.symm h]

theorem Holds.ok {d : Dict K V} {h : List (K × V)} (hd : Holds d h) : d.Ok := ⟨hd.nodup, hd.mem_iff⟩

/-- the keys with the new ones appended in order -/
def addKeys (ks0 ks : List K) : List K := ks.foldl (fun a k => if k ∈ a then a else a ++ [k]) ks0

theorem foldSet_ok (ps : List (K × V)) : ∀ (d : Dict K V), d.Ok → (ps.foldl (fun d e => d.set e.1 e.2) d).Ok ∧
    (ps.foldl (fun d e => d.set e.1 e.2) d).keys = addKeys d.keys (ps.map Prod.fst) := by
  induction ps with
  | nil => intro d hd; exact ⟨hd, rfl⟩
  | cons e ps ih =>
    intro d hd
    obtain ⟨h1, h2⟩ := ih (d.set e.1 e.2) (set_ok hd e.1 e.2)
    refine ⟨h1, ?_⟩
    show (ps.foldl (fun d e => d.set e.1 e.2) (d.set e.1 e.2)).keys = _
    rw [h2, set_keys hd]
    rfl

theorem foldSet_at (ps : List (K × V)) : ∀ (d : Dict K V) (k : K), (ps.foldl (fun d e => d.set e.1 e.2) d).at k =
    (((ps.filter (fun e => e.1 = k)).getLast?).map Prod.snd).or (d.at k) := by
  induction ps with
  | nil => intro d k; simp
  | cons e ps ih =>
    intro d k
    rw [List.foldl_cons, ih, set_at, List.filter_cons]
    by_cases h : e.1 = k
    · simp only [h, if_true, decide_true]
      cases hl : (ps.filter (fun e => e.1 = k)) with
      | nil => simp
      | cons a l => simp [List.getLast?_cons_cons, List.getLast?_cons]
    · simp [h]

theorem addKeys_sub (ks : List K) : ∀ ks0 : List K, (∃ x, addKeys ks0 ks = ks0 ++ x) ∧ (∀ k, k ∈ addKeys ks0 ks ↔ k ∈ ks0 ∨ k ∈ ks) := by
  induction ks with
  | nil => intro ks0; exact ⟨⟨[], by simp [addKeys]⟩, by intro k; simp [addKeys]⟩
  | cons k ks ih =>
    intro ks0
    have e : addKeys ks0 (k :: ks) = addKeys (if k ∈ ks0 then ks0 else ks0 ++ [k]) ks := rfl
    rw [e]
    split
    · rename_i hk
      obtain ⟨h1, h2⟩ := ih ks0
      refine ⟨h1, ?_⟩
      intro k'
      rw [h2, List.mem_cons]
      constructor
      · rintro (h | h); exact Or.inl h; exact Or.inr (Or.inr h)
      · rintro (h | rfl | h); exact Or.inl h; exact Or.inl hk; exact Or.inr h
    · obtain ⟨⟨x, h1⟩, h2⟩ := ih (ks0 ++ [k])
      refine ⟨⟨[k] ++ x, by rw [h1, List.append_assoc]⟩, ?_⟩
      intro k'
      rw [h2, List.mem_cons, List.mem_append, List.mem_singleton, or_assoc]

theorem idxOf_append_of_mem {l x : List K} {k : K} (h : k ∈ l) : (l ++ x).idxOf k = l.idxOf k := by
  rw [List.idxOf_append, if_pos h]

theorem objSelLoop_spec (e : V) (ks : List K) : ∀ (pos : List (K × Nat)) (d : Dict K V), d.Ok →
    (∀ k, mapGet pos k = if k ∈ d.keys then some (d.keys.idxOf k) else none) → pos.length = d.keys.length →
    ∃ d1, objSelLoop e ks pos d = (d1, ks.map (fun k => d1.keys.idxOf k)) ∧ d1.Ok ∧ d1.keys = addKeys d.keys ks ∧
      ∀ k, k ∉ ks → d1.at k = d.at k := by
  induction ks with
  | nil => intro pos d hd _ _; exact ⟨d, rfl, hd, rfl, by intro _ _; rfl⟩
  | cons k ks ih =>
    intro pos d hd hpos hlen
    have eadd : addKeys d.keys (k :: ks) = addKeys (if k ∈ d.keys then d.keys else d.keys ++ [k]) ks := rfl
    by_cases hk : k ∈ d.keys
    · obtain ⟨d1, h1, h2, h3, h4⟩ := ih pos d hd hpos hlen
      rw [if_pos hk] at eadd
      refine ⟨d1, ?_, h2, by rw [h3, eadd], fun k' hk' => h4 k' (fun h => hk' (List.mem_cons_of_mem _ h))⟩
      simp only [objSelLoop, hpos k, if_pos hk, h1, List.map_cons]
      congr 2
      obtain ⟨x, hx⟩ := (addKeys_sub ks d.keys).1
      rw [h3, hx, idxOf_append_of_mem hk]
    · rw [if_neg hk] at eadd
      have hkeys : (d.set k e).keys = d.keys ++ [k] := by rw [set_keys hd, if_neg hk]
      obtain ⟨d1, h1, h2, h3, h4⟩ := ih (mapSet pos k pos.length) (d.set k e) (set_ok hd k e) (by
        intro k'
        rw [mapGet_set, hkeys]
        by_cases h : k = k'
        · subst h
          rw [if_pos rfl, if_pos (by simp), List.idxOf_append, if_neg hk, hlen]
          simp
        · rw [if_neg h, hpos]
          by_cases hm : k' ∈ d.keys
          · rw [if_pos hm, if_pos (by simp [hm]), idxOf_append_of_mem hm]
          · rw [if_neg hm, if_neg (by simp [hm, Ne.symm h])]) (by
        have hlen' : ∀ (p : List (K × Nat)) (i : Nat), mapGet p k = none → (mapSet p k i).length = p.length + 1 := by
          intro p i
          induction p with
          | nil => intro _; rfl
          | cons q p ihp =>
            intro h
            simp only [mapGet] at h
            split at h
            · simp at h
            · rename_i h0
              simp only [mapSet, if_neg h0, List.length_cons, ihp h]
        rw [hlen' _ _ (by rw [hpos, if_neg hk]), hkeys, hlen]; simp)
      refine ⟨d1, ?_, h2, by rw [h3, hkeys, eadd], ?_⟩
      · simp only [objSelLoop, hpos k, if_neg hk, h1, List.map_cons]
        congr 2
        obtain ⟨x, hx⟩ := (addKeys_sub ks (d.keys ++ [k])).1
        rw [h3, hkeys, hx, idxOf_append_of_mem (by simp), List.idxOf_append, if_neg hk, hlen]
        simp
      · intro k' hk'
        rw [h4 k' (fun h => hk' (List.mem_cons_of_mem _ h)), set_at, if_neg (by intro h; subst h; exact hk' (by simp))]

theorem assignObjLoop_keys (keys : List K) (ps : List (K × V)) : ∀ (d : Dict K V), (∀ e ∈ ps, e.1 ∈ keys) →
    assignObjLoop (m := m) keys none (ps.map (fun e => (keys.idxOf e.1, e.2))) d = pure (ps.foldl (fun d e => d.set e.1 e.2) d) := by
  induction ps with
  | nil => intro d _; rfl
  | cons e ps ih =>
    intro d h
    have he := h e (by simp)
    simp only [List.map_cons, assignObjLoop]
    rw [List.getElem?_eq_getElem (List.idxOf_lt_length_of_mem he), List.getElem_idxOf]
    simp only [pure_bind]
    rw [ih _ (fun e' he' => h e' (by simp [he']))]
    rfl

theorem holds_congr {d d' : Dict K V} {h : List (K × V)} (hk : d.keys = d'.keys) (ha : ∀ k, d.at k = d'.at k) (hd : Holds d h) : Holds d' h := by
  refine ⟨fun k => by rw [← ha]; exact hd.1 k, fun k => by rw [← hk]; exact hd.2.1 k, by rw [← hk]; exact hd.2.2⟩

theorem holds_fold (ps : List (K × V)) : ∀ (d : Dict K V) (h : List (K × V)), Holds d h → Holds (ps.foldl (fun d e => d.set e.1 e.2) d) (h ++ ps) := by
  induction ps with
  | nil => intro d h hd; simpa using hd
  | cons e ps ih =>
    intro d h hd
    simpa using ih _ _ (C40_set d h hd e.1 e.2)

/-- the values assigned to the keys `ks`: one value for all keys, or the elements of an array -/
def DVal.spread (n : Nat) : DVal V → List V
  | .one v => List.replicate n v
  | .many w vs => if n = 1 then [w] else vs

/-- C40: `D[k1 k2 …]←R` is the sequence of the assignments of the single keys, in order (existing or new keys, also repeated ones): every key
gets its element of an array `R` of equal length, or the whole of a scalar `R`. -/
theorem C40_assign_keys (e : V) (d : Dict K V) (h : List (K × V)) (hd : Holds d h) (ks : List K) (R : DVal V)
    (hR : (R.spread ks.length).length = ks.length) :
    ∃ d', dictAssign (m := m) e none d (.vec ks) R = pure d' ∧ Holds d' (h ++ ks.zip (R.spread ks.length)) := by
  obtain ⟨d1, h1, h2, h3, h4⟩ := objSelLoop_spec e ks (keyPos d.keys 0 []) d hd.ok (fun k => (keyPos_get hd.nodup k).1)
    (by obtain ⟨_, e2⟩ := keyPos_spec d.keys 0 [] hd.nodup (by intro _ _; rfl); simpa using e2)
  have hks : ∀ k ∈ ks, k ∈ d1.keys := by intro k hk; rw [h3, (addKeys_sub ks d.keys).2]; exact Or.inr hk
  have hassign : assignObject (m := m) none d1 (ks.map (fun k => d1.keys.idxOf k)) R =
      assignObjLoop d1.keys none ((ks.zip (R.spread ks.length)).map (fun e => (d1.keys.idxOf e.1, e.2))) d1 := by
    have hz : ∀ vs : List V, (ks.map (fun k => d1.keys.idxOf k)).zip vs = (ks.zip vs).map (fun e => (d1.keys.idxOf e.1, e.2)) := by
      intro vs
      rw [List.zip_map_left]; rfl
    have hrep : ∀ (l : List Nat) (v : V), l.map (fun i => (i, v)) = l.zip (List.replicate l.length v) := by
      intro l v
      induction l with
      | nil => rfl
      | cons i l ih => simp [List.replicate_succ, ih]
    cases R with
    | one v =>
      simp only [assignObject, DVal.spread]
      rw [← hz, hrep, List.length_map]
    | many w vs =>
      simp only [assignObject, DVal.spread, List.length_map] at hR ⊢
      by_cases h1 : ks.length = 1
      · rw [if_neg (by omega), if_pos h1, ← hz, hrep, List.length_map, h1]
        rfl
      · rw [if_neg h1] at hR ⊢
        by_cases h0 : 1 < ks.length
        · rw [if_pos h0, if_pos hR.symm, hz]
        · have : ks = [] := List.length_eq_zero_iff.1 (by omega)
          subst this
          simp
  have hz1 : ∀ e ∈ ks.zip (R.spread ks.length), e.1 ∈ ks := fun e he => (List.of_mem_zip (a := e.1) (b := e.2) he).1
  refine ⟨(ks.zip (R.spread ks.length)).foldl (fun d e => d.set e.1 e.2) d1, ?_, ?_⟩
  · simp only [dictAssign, objSelection, h1]
    rw [hassign, assignObjLoop_keys _ _ _ (fun e he => hks _ (hz1 e he))]
  · have hmapfst : (ks.zip (R.spread ks.length)).map Prod.fst = ks := by
      rw [List.map_fst_zip]; omega
    refine holds_congr ?_ ?_ (holds_fold (ks.zip (R.spread ks.length)) d h hd)
    · rw [(foldSet_ok _ d hd.ok).2, (foldSet_ok _ d1 h2).2, hmapfst, h3]
      have habs : ∀ (l ks0 : List K), (∀ k ∈ l, k ∈ ks0) → addKeys ks0 l = ks0 := by
        intro l
        induction l with
        | nil => intro ks0 _; rfl
        | cons k l ih =>
          intro ks0 hl
          show addKeys (if k ∈ ks0 then ks0 else ks0 ++ [k]) l = ks0
          rw [if_pos (hl k (by simp))]
          exact ih ks0 (fun k' hk' => hl k' (by simp [hk']))
      rw [habs ks (addKeys d.keys ks) (fun k hk => ((addKeys_sub ks d.keys).2 k).2 (Or.inr hk))]
    · intro k
      rw [foldSet_at, foldSet_at]
      by_cases hk : k ∈ ks
      · have hne : (ks.zip (R.spread ks.length)).filter (fun e => e.1 = k) ≠ [] := by
          rw [← hmapfst] at hk
          obtain ⟨e, he, rfl⟩ := List.mem_map.1 hk
          exact List.ne_nil_of_mem (a := e) (List.mem_filter.2 ⟨he, by simp⟩)
        cases hl : (ks.zip (R.spread ks.length)).filter (fun e => e.1 = k) with
        | nil => exact absurd hl hne
        | cons a l => simp [List.getLast?_cons]
      · rw [h4 k hk]

/-- C40: an array that has not as many elements as there are keys (more than one) is rejected. -/
theorem C40_nonconforming (e : V) (f : Option (V → V → ExceptT Fail m V)) (d : Dict K V) (h : List (K × V)) (hd : Holds d h) (ks : List K) (w : V) (vs : List V)
    (hk : 1 < ks.length) (hv : ks.length ≠ vs.length) : dictAssign e f d (.vec ks) (.many w vs) = throw .err := by
  obtain ⟨d1, h1, _⟩ := objSelLoop_spec e ks (keyPos d.keys 0 []) d hd.ok (fun k => (keyPos_get hd.nodup k).1)
    (by obtain ⟨_, e2⟩ := keyPos_spec d.keys 0 [] hd.nodup (by intro _ _; rfl); simpa using e2)
  simp only [dictAssign, objSelection, h1, assignObject, List.length_map]
  rw [if_pos hk, if_neg hv]

theorem make_core (ks : List K) (hn : ks.Nodup) (vs : List V) (hl : vs.length = ks.length) :
    Holds (⟨ks, (ks.zip vs).foldl (fun m e => mapSet m e.1 e.2) []⟩ : Dict K V) (ks.zip vs) := by
  have hmap : ∀ (ps : List (K × V)) (d : Dict K V), (ps.foldl (fun d e => d.set e.1 e.2) d).map = ps.foldl (fun m e => mapSet m e.1 e.2) d.map := by
    intro ps
    induction ps with
    | nil => intro d; rfl
    | cons e ps ih => intro d; rw [List.foldl_cons, ih]; rfl
  refine holds_congr ?_ ?_ (C40_history (ks.zip vs))
  · rw [(foldSet_ok _ _ holds_empty.ok).2, List.map_fst_zip (by omega)]
    have hadd : ∀ (l ks0 : List K), (ks0 ++ l).Nodup → addKeys ks0 l = ks0 ++ l := by
      intro l
      induction l with
      | nil => intro ks0 _; simp [addKeys]
      | cons k l ih =>
        intro ks0 hnd
        have hk : k ∉ ks0 := by
          intro hk
          rw [List.nodup_append] at hnd
          exact hnd.2.2 k hk k (by simp) rfl
        show addKeys (if k ∈ ks0 then ks0 else ks0 ++ [k]) l = _
        rw [if_neg hk, ih (ks0 ++ [k]) (by simpa using hnd)]
        simp
    exact hadd ks [] (by simpa using hn)
  · intro k
    show mapGet (Dict.map _) k = _
    rw [hmap]; rfl

/-- C40: `L#R` for distinct keys is the dictionary of these assignments. -/
theorem C40_make (ks : List K) (hn : ks.Nodup) (R : DVal V) (vs : List V)
    (hv : vs = match R with | .one v => List.replicate ks.length v | .many _ vs => vs) (hl : vs.length = ks.length) :
    ∃ d, dictMake (.vec ks) R = .ok d ∧ Holds d (ks.zip vs) := by
  refine ⟨⟨ks, (ks.zip vs).foldl (fun m e => mapSet m e.1 e.2) []⟩, ?_, make_core ks hn vs hl⟩
  simp only [dictMake]
  cases R <;> simp only at hv <;> subst hv <;> simp [hl]

theorem C40_make_one (k : K) (R : DVal V) : ∃ d, dictMake (.one k) R = .ok d ∧ Holds d [(k, R.val)] :=
  ⟨_, rfl, holds_congr (d := Dict.empty.set k R.val) rfl (fun _ => rfl) (C40_history [(k, R.val)])⟩

/-- C40: `#d` is the vector of the keys that were assigned, each once, in the order of the first assignments. -/
theorem C40_keys (uk : List K → Kind) (d : Dict K V) (h : List (K × V)) (hd : Holds d h) :
    ∃ ks, dictKeys uk d = .arr (uk ks) ⟨[ks.length], ks⟩ ∧ (∀ k, k ∈ ks ↔ k ∈ h.map Prod.fst) ∧
      ks.Pairwise (fun a b => (h.map Prod.fst).idxOf a < (h.map Prod.fst).idxOf b) :=
  ⟨d.keys, rfl, hd.2⟩

/-- C40: the keys of `K#V` for a vector of keys are `K`. -/
theorem C40_keys_make (uk : List K → Kind) (ks : List K) (R : DVal V) (d : Dict K V) (h : dictMake (.vec ks) R = .ok d) :
    dictKeys uk d = .arr (uk ks) ⟨[ks.length], ks⟩ := by
  cases R <;> simp only [dictMake] at h <;> split at h <;> first | (cases h; done) | (cases h; rfl)

/-- C40: indexing with a vector of distinct existing keys gives the dictionary of these keys with their values. -/
theorem C40_index_keys (d : Dict K V) (h : List (K × V)) (hd : Holds d h) (ks : List K) (hn : ks.Nodup) (hk : ∀ k ∈ ks, k ∈ d.keys) :
    ∃ d', objIndex d (.vec ks) = .ok (.inr d') ∧ d'.keys = ks ∧ ∀ k, d'.at k = if k ∈ ks then d.at k else none := by
  obtain ⟨vs, hvs⟩ : ∃ vs : List V, ks.map d.at = vs.map some := by
    clear hn
    induction ks with
    | nil => exact ⟨[], rfl⟩
    | cons k ks ih =>
      obtain ⟨vs, hvs⟩ := ih (fun k' hk' => hk k' (by simp [hk']))
      have h1 := (hd.mem_iff k).1 (hk k (by simp))
      cases hg : d.at k with
      | none => rw [hg] at h1; simp at h1
      | some v => exact ⟨v :: vs, by simp [hg, hvs]⟩
  have hlen : ks.length = vs.length := by simpa using congrArg List.length hvs
  have hm : ks.mapM (fun k => orErr (d.at k)) = .ok vs := by
    clear hn hk hlen
    induction ks generalizing vs with
    | nil =>
      cases vs with
      | nil => rfl
      | cons => simp at hvs
    | cons k ks ih =>
      cases vs with
      | nil => simp at hvs
      | cons v vs =>
        simp only [List.map_cons, List.cons.injEq] at hvs
        rw [List.mapM_cons, hvs.1, ih vs hvs.2]; rfl
  have h2 := make_core ks hn vs hlen.symm
  refine ⟨⟨ks, (ks.zip vs).foldl (fun m e => mapSet m e.1 e.2) []⟩, ?_, rfl, ?_⟩
  · simp only [objIndex, hm, bind, Except.bind]; rfl
  · intro k
    by_cases hkm : k ∈ ks
    · rw [if_pos hkm, h2.1]
      clear h2 hm hk
      induction ks generalizing vs with
      | nil => simp at hkm
      | cons k0 ks ih =>
        cases vs with
        | nil => simp at hlen
        | cons v vs =>
          simp only [List.map_cons, List.cons.injEq] at hvs
          rw [List.nodup_cons] at hn
          simp only [List.zip_cons_cons, List.filter_cons]
          by_cases h0 : k0 = k
          · subst h0
            have : (ks.zip vs).filter (fun e => e.1 = k0) = [] := by
              rw [List.filter_eq_nil_iff]
              intro e he hc
              have := (List.of_mem_zip (a := e.1) (b := e.2) he).1
              simp only [decide_eq_true_eq] at hc
              rw [hc] at this
              exact hn.1 this
            simp [this, hvs.1]
          · simp only [h0, decide_false, Bool.false_eq_true, if_false]
            exact ih hn.2 vs hvs.2 (by simpa using hlen) (by
              rcases List.mem_cons.1 hkm with h | h
              · exact absurd h.symm h0
              · exact h)
    · rw [if_neg hkm]
      have := mt (h2.mem_iff k).2 hkm
      simpa using this

/-- C40: a missing key is rejected. -/
theorem C40_index_missing (d : Dict K V) (h : List (K × V)) (hd : Holds d h) (ks : List K) (k : K) (hk : k ∈ ks) (hno : k ∉ d.keys) :
    objIndex d (.vec ks) = .error .err := by
  have hnone : d.at k = none := by simpa using mt (hd.mem_iff k).2 hno
  have hm : ks.mapM (fun k => orErr (d.at k)) = .error .err := by
    induction ks with
    | nil => simp at hk
    | cons k0 ks ih =>
      rw [List.mapM_cons]
      cases h0 : d.at k0 with
      | none => rfl
      | some v =>
        rcases List.mem_cons.1 hk with h | h
        · subst h; rw [hnone] at h0; simp at h0
        · simp only [ih h]; rfl
  simp only [objIndex, hm, bind, Except.bind]

/-- Deviation: `L#R` with a repeated key keeps it twice in the key list. -/
theorem C40_duplicate_keys : dictMake (.vec ["a", "a"]) (.many 0 [1, 2]) = .ok (⟨["a", "a"], [("a", 2)]⟩ : Dict String Nat) := by decide

/-- … and an assignment of a new key to such a dictionary overwrites another key: after `D←"a" "a"#1 2`, `D["b"]←5` sets `a` to 5 and
leaves the new key `b` empty (`0` here). -/
theorem C40_duplicate_keys_assign :
    dictAssign (m := Id) 0 none (⟨["a", "a"], [("a", 2)]⟩ : Dict String Nat) (.one "b") (.one 5) =
      pure ⟨["a", "a", "b"], [("a", 5), ("b", 0)]⟩ := by rfl

example : ∃ d, dictAssign (m := Id) 0 none (⟨["a"], [("a", 2)]⟩ : Dict String Nat) (.vec ["b", "a", "b"]) (.many 9 [5, 6, 7]) = pure d ∧
    d = ⟨["a", "b"], [("a", 6), ("b", 7)]⟩ := ⟨_, rfl, rfl⟩

example : Holds (⟨["a", "b"], [("a", 6), ("b", 7)]⟩ : Dict String Nat) [("a", 2), ("b", 7), ("a", 6)] :=
  C40_history [("a", 2), ("b", 7), ("a", 6)]

end Iv

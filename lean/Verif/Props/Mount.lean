import Verif.Model.Mount
import Mathlib.Logic.Basic
import Mathlib.Tactic.ByContra
/-
C74 the mount table, C75 names of files in a mounted directory.
-/
namespace Iv
variable {F : Type}

theorem hasPrefix_iff (s pre : List Char) : hasPrefix s pre = true ↔ pre <+: s := by
  induction pre generalizing s with
  | nil => cases s <;> simp [hasPrefix]
  | cons p pre ih =>
    cases s with
    | nil => simp [hasPrefix]
    | cons c s =>
      rw [hasPrefix, List.cons_prefix_cons]
      split
      · rename_i h; subst h; simp [ih]
      · rename_i h; simp; intro e; exact absurd e.symm h

theorem hasSuffix_iff (s suf : List Char) : hasSuffix s suf = true ↔ suf <:+ s := by
  rw [hasSuffix, hasPrefix_iff, List.reverse_prefix]

theorem trimPrefix_append (pre rel : List Char) : trimPrefix (pre ++ rel) pre = rel := by
  rw [trimPrefix, if_pos ((hasPrefix_iff _ _).2 (List.prefix_append _ _)), List.drop_left]

theorem mpointUsed_iff (mpt : List Char) (tab : List (MPoint F)) : mpointUsed mpt tab = true ↔ mpt ∈ tab.map (·.mpt) := by
  induction tab with
  | nil => simp [mpointUsed]
  | cons t ts ih =>
    rw [mpointUsed]
    split
    · rename_i h; simp [h]
    · rename_i h
      rw [ih]
      simp only [List.map_cons, List.mem_cons]
      constructor
      · exact .inr
      · rintro (e | e)
        · exact absurd e.symm h
        · exact e

/-- What a mount point must look like. -/
def PointName (mpt : List Char) : Prop := ['/'] <+: mpt ∧ ['/'] <:+ mpt

/-- Mounting succeeds exactly for a name that begins and ends with a slash and is not in use; the new mount point comes last, the others are
as before. -/
theorem C74_mount (tab : List (MPoint F)) (mpt : List Char) (fs : F) :
    (PointName mpt ∧ mpt ∉ tab.map (·.mpt) → mountFs tab mpt fs = .ok (tab ++ [⟨mpt, fs⟩])) ∧
    (¬ (PointName mpt ∧ mpt ∉ tab.map (·.mpt)) → mountFs tab mpt fs = .error .err ∧ applyMount tab (.mount mpt fs) = tab) := by
  classical
  have key : mountFs tab mpt fs = if PointName mpt ∧ mpt ∉ tab.map (·.mpt) then .ok (tab ++ [⟨mpt, fs⟩]) else .error .err := by
    have h1 := hasPrefix_iff mpt ['/']
    have h2 := hasSuffix_iff mpt ['/']
    have h3 := mpointUsed_iff mpt tab
    rw [mountFs]
    by_cases hp : PointName mpt ∧ mpt ∉ tab.map (·.mpt)
    · rw [if_pos hp, if_neg (by rw [h1.2 hp.1.1]; decide), if_neg (by rw [h2.2 hp.1.2]; decide), if_neg (fun e => hp.2 (h3.1 e))]
    · rw [if_neg hp]
      split
      · rfl
      rename_i a1
      split
      · rfl
      rename_i a2
      split
      · rfl
      rename_i a3
      refine absurd ⟨⟨h1.1 ?_, h2.1 ?_⟩, fun e => a3 (h3.2 e)⟩ hp
      · simpa using a1
      · simpa using a2
  constructor
  · intro h
    rw [key, if_pos h]
  · intro h
    rw [applyMount, key, if_neg h]
    exact ⟨rfl, rfl⟩

theorem mpointIndex_spec (mpt : List Char) (tab : List (MPoint F)) (hn : (tab.map (·.mpt)).Nodup) (i : Nat) (n : Option Nat) :
    (mpt ∉ tab.map (·.mpt) → mpointIndex mpt i tab n = n) ∧
    (∀ t1 t2 fs, tab = t1 ++ ⟨mpt, fs⟩ :: t2 → mpointIndex mpt i tab n = some (i + t1.length)) := by
  induction tab generalizing i n with
  | nil => exact ⟨fun _ => rfl, fun t1 t2 fs e => by simp at e⟩
  | cons t ts ih =>
    simp only [List.map_cons, List.nodup_cons] at hn
    constructor
    · intro h
      simp only [List.map_cons, List.mem_cons, not_or] at h
      rw [mpointIndex, (ih hn.2 (i + 1) _).1 h.2, if_neg (fun e => h.1 e.symm)]
    · intro t1 t2 fs e
      rw [mpointIndex]
      cases t1 with
      | nil =>
        cases e
        rw [if_pos rfl, (ih hn.2 (i + 1) _).1 hn.1]
        rfl
      | cons u t1 =>
        cases e
        rw [(ih hn.2 (i + 1) _).2 t1 t2 fs rfl, List.length_cons]
        congr 1
        omega

/-- Unmounting removes exactly the mount point of that name. -/
theorem C74_umount (tab : List (MPoint F)) (hn : (tab.map (·.mpt)).Nodup) (mpt : List Char) : umountFs tab mpt = tab.filter (fun t => t.mpt ≠ mpt) := by
  rw [umountFs]
  by_cases h : mpt ∈ tab.map (·.mpt)
  · obtain ⟨t, ht, rfl⟩ := List.mem_map.1 h
    obtain ⟨t1, t2, e⟩ := List.append_of_mem ht
    rw [(mpointIndex_spec t.mpt tab hn 0 none).2 t1 t2 t.src e]
    simp only [Nat.zero_add]
    subst e
    rw [List.map_append, List.map_cons, List.nodup_append] at hn
    obtain ⟨_, h2, h3⟩ := hn
    rw [List.nodup_cons] at h2
    have f1 : t1.filter (fun u => u.mpt ≠ t.mpt) = t1 := by
      rw [List.filter_eq_self]
      intro u hu
      have := h3 u.mpt (List.mem_map.2 ⟨u, hu, rfl⟩) t.mpt List.mem_cons_self
      simpa using this
    have f2 : t2.filter (fun u => u.mpt ≠ t.mpt) = t2 := by
      rw [List.filter_eq_self]
      intro u hu
      have : u.mpt ≠ t.mpt := fun e => h2.1 (e ▸ List.mem_map.2 ⟨u, hu, rfl⟩)
      simpa using this
    rw [List.filter_append, f1, List.filter_cons_of_neg (by simp), f2, List.take_left, ← List.drop_drop, List.drop_left]
    rfl
  · rw [(mpointIndex_spec mpt tab hn 0 none).1 h]
    symm
    rw [List.filter_eq_self]
    intro u hu
    have : u.mpt ≠ mpt := fun e => h (e ▸ List.mem_map.2 ⟨u, hu, rfl⟩)
    simpa using this

/-- After every history of mounts and unmounts the mount points are different from each other, and begin and end with a slash. -/
theorem C74_history (ops : List (MountOp F)) :
    ((mountTable ops).map (·.mpt)).Nodup ∧ ∀ t ∈ mountTable ops, PointName t.mpt := by
  have step : ∀ (tab : List (MPoint F)) op, ((tab.map (·.mpt)).Nodup ∧ ∀ t ∈ tab, PointName t.mpt) →
      (((applyMount tab op).map (·.mpt)).Nodup ∧ ∀ t ∈ applyMount tab op, PointName t.mpt) := by
    intro tab op ⟨h1, h2⟩
    cases op with
    | mount mpt fs =>
      by_cases hp : PointName mpt ∧ mpt ∉ tab.map (·.mpt)
      · rw [applyMount, (C74_mount tab mpt fs).1 hp]
        simp only [List.map_append, List.map_cons, List.map_nil]
        refine ⟨?_, ?_⟩
        · rw [List.nodup_append]
          refine ⟨h1, by simp, ?_⟩
          intro a ha b hb e
          simp only [List.mem_singleton] at hb
          subst hb; subst e
          exact hp.2 ha
        · intro t ht
          rcases List.mem_append.1 ht with ht | ht
          · exact h2 t ht
          · rw [List.mem_singleton.1 ht]; exact hp.1
      · rw [((C74_mount tab mpt fs).2 hp).2]
        exact ⟨h1, h2⟩
    | umount mpt =>
      rw [applyMount, C74_umount tab h1]
      exact ⟨h1.sublist (List.Sublist.map _ List.filter_sublist), fun t ht => h2 t (List.mem_filter.1 ht).1⟩
  rw [mountTable]
  have : ∀ (ops : List (MountOp F)) (tab : List (MPoint F)), ((tab.map (·.mpt)).Nodup ∧ ∀ t ∈ tab, PointName t.mpt) →
      ((ops.foldl applyMount tab).map (·.mpt)).Nodup ∧ ∀ t ∈ ops.foldl applyMount tab, PointName t.mpt := by
    intro ops
    induction ops with
    | nil => intro tab h; exact h
    | cons op ops ih => intro tab h; exact ih _ (step tab op h)
  exact this ops [] ⟨by simp, fun t h => by cases h⟩

/-- The mount point that is responsible for a name: the last one in the table that the name begins with. -/
def ServedBy (tab : List (MPoint F)) (name : List Char) (t : MPoint F) : Prop :=
  ∃ t1 t2, tab = t1 ++ t :: t2 ∧ t.mpt <+: name ∧ ∀ u ∈ t2, ¬ u.mpt <+: name

theorem lookupLoop_spec (name : List Char) (tab : List (MPoint F)) (n : Nat) (hn : n ≤ tab.length) (hlate : ∀ u ∈ tab.drop n, ¬ u.mpt <+: name) (t : MPoint F) :
    lookupLoop name tab n = some t ↔ ServedBy tab name t := by
  induction n with
  | zero =>
    rw [lookupLoop]
    constructor
    · intro h; cases h
    · rintro ⟨t1, t2, rfl, h, _⟩
      exact absurd h (hlate t (by simp))
  | succ n ih =>
    rw [lookupLoop, List.getElem?_eq_getElem (by omega)]
    simp only
    have hd : tab.drop n = tab[n] :: tab.drop (n + 1) := List.drop_eq_getElem_cons (by omega)
    split
    · rename_i h
      rw [hasPrefix_iff] at h
      constructor
      · intro e
        cases e
        exact ⟨tab.take n, tab.drop (n + 1), by rw [← hd, List.take_append_drop], h, hlate⟩
      · rintro ⟨t1, t2, e, h1, h2⟩
        have hlen : t1.length = n := by
          by_contra hne
          rcases Nat.lt_or_gt_of_ne hne with hlt | hgt
          · -- tab[n] lies in t2
            refine h2 tab[n] ?_ h
            have : tab[n] = t2[n - t1.length - 1]'(by rw [e] at hn; simp at hn; omega) := by
              simp only [e]
              rw [List.getElem_append_right (by omega)]
              simp only [List.getElem_cons]
              rw [dif_neg (by omega)]
            rw [this]
            exact List.getElem_mem _
          · refine hlate t ?_ h1
            rw [e, List.drop_append_of_le_length (by omega)]
            simp
        have : tab[n] = t := by
          simp only [e]
          rw [List.getElem_append_right (by omega)]
          simp [hlen]
        rw [this]
    · rename_i h
      rw [hasPrefix_iff] at h
      refine ih (by omega) ?_
      intro u hu
      rw [hd] at hu
      rcases List.mem_cons.1 hu with rfl | hu
      · exact h
      · exact hlate u hu

/-- Opening a name asks the file system that was mounted last among those whose mount point the name begins with, and gives it the rest of
the name; it fails exactly if there is none. -/
theorem C74_open (tab : List (MPoint F)) (name : List Char) :
    (∀ fs rel mpt, openFs tab name = .ok (fs, rel, mpt) ↔ name = mpt ++ rel ∧ ServedBy tab name ⟨mpt, fs⟩) ∧
    (openFs tab name = .error .err ↔ ∀ t ∈ tab, ¬ t.mpt <+: name) := by
  have hspec := lookupLoop_spec name tab tab.length (Nat.le_refl _) (by simp)
  have hnone : lookupLoop name tab tab.length = none ↔ ∀ t ∈ tab, ¬ t.mpt <+: name := by
    constructor
    · intro h t ht hp
      -- take the last one
      have : ∀ (l : List (MPoint F)), (∃ t ∈ l, t.mpt <+: name) → ∃ t, ServedBy l name t := by
        intro l
        induction l with
        | nil => rintro ⟨t, h, _⟩; cases h
        | cons a l ih =>
          rintro ⟨t, h, hp⟩
          by_cases hl : ∃ t ∈ l, t.mpt <+: name
          · obtain ⟨t', t1, t2, e, h1, h2⟩ := ih hl
            exact ⟨t', a :: t1, t2, by rw [e]; rfl, h1, h2⟩
          · rcases List.mem_cons.1 h with rfl | h
            · exact ⟨t, [], l, rfl, hp, fun u hu hpu => hl ⟨u, hu, hpu⟩⟩
            · exact absurd ⟨t, h, hp⟩ hl
      obtain ⟨t', ht'⟩ := this tab ⟨t, ht, hp⟩
      rw [(hspec t').2 ht'] at h
      cases h
    · intro h
      cases hl : lookupLoop name tab tab.length with
      | none => rfl
      | some t =>
        obtain ⟨t1, t2, rfl, h1, _⟩ := (hspec t).1 hl
        exact absurd h1 (h t (by simp))
  have hopen : openFs tab name = match lookupLoop name tab tab.length with
      | some t => .ok (t.src, trimPrefix name t.mpt, t.mpt)
      | none => .error .err := by
    rw [openFs, lookupFs]
    split
    · rename_i e h
      by_cases h0 : tab.length = 0
      · have : tab = [] := List.length_eq_zero_iff.1 h0
        subst this
        rw [if_pos h0] at h
        cases h
        rfl
      · rw [if_neg h0] at h
        cases hl : lookupLoop name tab tab.length with
        | none => rw [hl] at h; cases h; rfl
        | some t => rw [hl] at h; cases h
    · rename_i fs mpt h
      by_cases h0 : tab.length = 0
      · rw [if_pos h0] at h; cases h
      · rw [if_neg h0] at h
        cases hl : lookupLoop name tab tab.length with
        | none => rw [hl] at h; cases h
        | some t => rw [hl] at h; cases h; rfl
  constructor
  · intro fs rel mpt
    rw [hopen]
    constructor
    · intro h
      cases hl : lookupLoop name tab tab.length with
      | none => rw [hl] at h; cases h
      | some t =>
        rw [hl] at h
        cases h
        have hs := (hspec t).1 hl
        obtain ⟨t1, t2, e, ⟨r, hr⟩, h2⟩ := hs
        refine ⟨?_, t1, t2, e, ⟨r, hr⟩, h2⟩
        rw [← hr, trimPrefix_append]
    · rintro ⟨e, hs⟩
      rw [(hspec _).2 hs]
      simp only
      rw [e, trimPrefix_append]
  · rw [hopen, ← hnone]
    cases lookupLoop name tab tab.length with
    | none => simp
    | some t => simp

/-- A new mount serves exactly the names under its mount point; all other names are served as before. -/
theorem C74_shadow (tab : List (MPoint F)) (mpt : List Char) (fs : F) (tab' : List (MPoint F)) (h : mountFs tab mpt fs = .ok tab') (name : List Char) :
    (∀ rel, openFs tab' (mpt ++ rel) = .ok (fs, rel, mpt)) ∧ (¬ mpt <+: name → openFs tab' name = openFs tab name) := by
  have e : tab' = tab ++ [⟨mpt, fs⟩] := by
    by_cases hp : PointName mpt ∧ mpt ∉ tab.map (·.mpt)
    · rw [(C74_mount tab mpt fs).1 hp] at h; cases h; rfl
    · rw [((C74_mount tab mpt fs).2 hp).1] at h; cases h
  subst e
  constructor
  · intro rel
    exact ((C74_open _ _).1 fs rel mpt).2 ⟨rfl, tab, [], rfl, List.prefix_append _ _, fun u hu => by cases hu⟩
  · intro hn
    have hserved : ∀ t, ServedBy (tab ++ [⟨mpt, fs⟩]) name t ↔ ServedBy tab name t := by
      intro t
      constructor
      · rintro ⟨t1, t2, e, h1, h2⟩
        rcases List.eq_nil_or_concat t2 with rfl | ⟨t2', u, rfl⟩
        · obtain ⟨_, e2⟩ := List.append_inj' e rfl
          cases e2
          exact absurd h1 hn
        · rw [List.concat_eq_append] at *
          rw [← List.cons_append, ← List.append_assoc] at e
          obtain ⟨e1, e2⟩ := List.append_inj' e rfl
          exact ⟨t1, t2', e1, h1, fun v hv => h2 v (List.mem_append_left _ hv)⟩
      · rintro ⟨t1, t2, rfl, h1, h2⟩
        refine ⟨t1, t2 ++ [⟨mpt, fs⟩], by simp, h1, ?_⟩
        intro u hu
        rcases List.mem_append.1 hu with hu | hu
        · exact h2 u hu
        · rw [List.mem_singleton.1 hu]; exact hn
    cases ho : openFs tab name with
    | ok p =>
      obtain ⟨fs', rel, m⟩ := p
      have := ((C74_open tab name).1 fs' rel m).1 ho
      exact ((C74_open _ name).1 fs' rel m).2 ⟨this.1, (hserved _).2 this.2⟩
    | error e =>
      cases e with
      | panic =>
        exfalso
        rw [openFs, lookupFs] at ho
        split at ho
        · rename_i e h'
          split at h'
          · cases h'; cases ho
          · split at h'
            · cases h'
            · cases h'; cases ho
        · cases ho
      | err =>
        refine ((C74_open _ name).2).2 ?_
        intro t ht
        rcases List.mem_append.1 ht with ht | ht
        · exact ((C74_open tab name).2).1 ho t ht
        · rw [List.mem_singleton.1 ht]; exact hn

/-- Mounting and unmounting again leaves the table as it was. -/
theorem C74_undo (tab : List (MPoint F)) (hn : (tab.map (·.mpt)).Nodup) (mpt : List Char) (fs : F) (tab' : List (MPoint F)) (h : mountFs tab mpt fs = .ok tab') :
    umountFs tab' mpt = tab := by
  by_cases hp : PointName mpt ∧ mpt ∉ tab.map (·.mpt)
  · rw [(C74_mount tab mpt fs).1 hp] at h
    cases h
    rw [C74_umount]
    · rw [List.filter_append, List.filter_cons_of_neg (by simp), List.filter_nil, List.append_nil, List.filter_eq_self]
      intro u hu
      have : u.mpt ≠ mpt := fun e => hp.2 (e ▸ List.mem_map.2 ⟨u, hu, rfl⟩)
      simpa using this
    · rw [List.map_append, List.nodup_append]
      refine ⟨hn, by simp, ?_⟩
      intro a ha b hb e
      simp only [List.map_cons, List.map_nil, List.mem_singleton] at hb
      subst hb; subst e
      exact hp.2 ha
  · rw [((C74_mount tab mpt fs).2 hp).1] at h; cases h

/-- A file is created on the file system that would be asked to open it, under the same name, if that file system can be written; otherwise
nothing is created. -/
theorem C74_create (writable : F → Bool) (tab : List (MPoint F)) (name : List Char) :
    createFs writable tab name = match openFs tab name with
      | .ok (fs, rel, _) => if writable fs then .ok (fs, rel) else .error .err
      | .error e => .error e := by
  rw [createFs, openFs, lookupFs]
  by_cases h0 : tab.length = 0
  · rw [if_pos h0, if_pos h0]
  · rw [if_neg h0, if_neg h0]
    cases lookupLoop name tab tab.length with
    | none => rfl
    | some t => rfl

/-- Which protocol a source belongs to does not depend on the order of the registered protocols (their names do not contain a colon). -/
theorem C74_protocol (src : List Char) (ps : List (List Char × (List Char → Res F))) (hc : ∀ p ∈ ps, ':' ∉ p.1) (hn : (ps.map (·.1)).Nodup)
    (name rest : List Char) (connect : List Char → Res F) (hm : (name, connect) ∈ ps) (hs : src = name ++ [':', '/', '/'] ++ rest) :
    protocolFs src ps = some (connect rest) := by
  induction ps with
  | nil => cases hm
  | cons p ps ih =>
    obtain ⟨name', connect'⟩ := p
    simp only [List.map_cons, List.nodup_cons] at hn
    rw [protocolFs]
    by_cases he : name' = name
    · subst he
      rcases List.mem_cons.1 hm with e | hm
      · cases e
        rw [hs, if_pos ((hasPrefix_iff _ _).2 (List.prefix_append _ _)), trimPrefix_append]
      · exact absurd (List.mem_map.2 ⟨_, hm, rfl⟩) hn.1
    · rw [if_neg]
      · refine ih (fun p hp => hc p (List.mem_cons_of_mem _ hp)) hn.2 ?_
        rcases List.mem_cons.1 hm with e | hm
        · cases e; exact absurd rfl he
        · exact hm
      · rw [hasPrefix_iff]
        rintro ⟨r, hr⟩
        rw [hs] at hr
        apply he
        have h1 : ':' ∉ name' := hc _ List.mem_cons_self
        have h2 : ':' ∉ name := hc _ hm
        have key : ∀ (a b : List Char) (x y : List Char), ':' ∉ a → ':' ∉ b → a ++ ':' :: x = b ++ ':' :: y → a = b := by
          intro a
          induction a with
          | nil =>
            intro b x y _ hb e
            cases b with
            | nil => rfl
            | cons c b =>
              simp only [List.nil_append, List.cons_append, List.cons.injEq] at e
              exact absurd (e.1 ▸ List.mem_cons_self) hb
          | cons c a iha =>
            intro b x y ha hb e
            cases b with
            | nil =>
              simp only [List.nil_append, List.cons_append, List.cons.injEq] at e
              exact absurd (e.1 ▸ List.mem_cons_self) ha
            | cons d b =>
              simp only [List.cons_append, List.cons.injEq] at e
              rw [e.1, iha b x y (fun h => ha (List.mem_cons_of_mem _ h)) (fun h => hb (List.mem_cons_of_mem _ h)) e.2]
        exact key name' name ('/' :: '/' :: r) ('/' :: '/' :: rest) h1 h2 (by simpa using hr)

/-- A failing mount (the source cannot be used, or the mount point is not accepted) leaves no trace, and a successful one adds one entry. -/
theorem C74_call (protocols : List (List Char × (List Char → Res F))) (dot : F) (dir : List Char → Res F) (tab tab' : List (MPoint F)) (mpt src : List Char)
    (h : mountCall protocols dot dir tab mpt src = .ok tab') :
    ∃ fs, tab' = tab ++ [⟨mpt, fs⟩] ∧ PointName mpt ∧ mpt ∉ tab.map (·.mpt) ∧
      (protocolFs src protocols = some (.ok fs) ∨ protocolFs src protocols = none ∧ (src = ['.'] ∧ fs = dot ∨ src ≠ ['.'] ∧ dir src = .ok fs)) := by
  have hm : ∀ fs, mountFs tab mpt fs = .ok tab' → tab' = tab ++ [⟨mpt, fs⟩] ∧ PointName mpt ∧ mpt ∉ tab.map (·.mpt) := by
    intro fs h
    by_cases hp : PointName mpt ∧ mpt ∉ tab.map (·.mpt)
    · rw [(C74_mount tab mpt fs).1 hp] at h; cases h; exact ⟨rfl, hp.1, hp.2⟩
    · rw [((C74_mount tab mpt fs).2 hp).1] at h; cases h
  rw [mountCall] at h
  split at h
  · cases h
  · rename_i fs e
    obtain ⟨h1, h2, h3⟩ := hm fs h
    exact ⟨fs, h1, h2, h3, .inl e⟩
  · rename_i e
    split at h
    · rename_i hd
      obtain ⟨h1, h2, h3⟩ := hm dot h
      exact ⟨dot, h1, h2, h3, .inr ⟨e, .inl ⟨hd, rfl⟩⟩⟩
    · rename_i hd
      split at h
      · cases h
      · rename_i fs e'
        obtain ⟨h1, h2, h3⟩ := hm fs h
        exact ⟨fs, h1, h2, h3, .inr ⟨e, .inr ⟨hd, e'⟩⟩⟩

/- ## C75 names within a mounted directory -/

/-- An ordinary part of a path. -/
def PlainName (part : List Char) : Prop := part ≠ [] ∧ part ≠ ['.'] ∧ part ≠ ['.', '.']

theorem clean_fold (rooted : Bool) (acc parts : List (List Char)) (h : ∀ p ∈ parts, p ≠ ['.', '.']) :
    parts.foldl (cleanStep rooted) acc = acc ++ parts.filter (fun p => p ≠ [] ∧ p ≠ ['.']) := by
  induction parts generalizing acc with
  | nil => simp
  | cons p parts ih =>
    rw [List.foldl_cons, ih _ (fun q hq => h q (List.mem_cons_of_mem _ hq)), cleanStep]
    by_cases hp : p = [] ∨ p = ['.']
    · rw [if_pos hp, List.filter_cons_of_neg]
      simp only [ne_eq, decide_eq_true_eq, not_and_or, not_not]
      exact hp
    · rw [if_neg hp, if_neg (h p List.mem_cons_self), List.filter_cons_of_pos]
      · simp
      · simp only [ne_eq, decide_eq_true_eq]
        exact ⟨fun e => hp (.inl e), fun e => hp (.inr e)⟩

/-- If no part of the name is "..", the file is inside of the mounted directory: its path is the path of the directory followed by the parts
of the name. -/
theorem C75_inside (root name : List Char) (hroot : ∀ p ∈ splitSlash root, p ≠ ['.', '.']) (hname : ∀ p ∈ splitSlash name, p ≠ ['.', '.']) :
    (osPath root name).2 = (splitSlash root).filter (fun p => p ≠ [] ∧ p ≠ ['.']) ++ (splitSlash name).filter (fun p => p ≠ [] ∧ p ≠ ['.']) := by
  have := clean_fold (hasPrefix root ['/']) [] (splitSlash root ++ splitSlash name) (fun p hp => (List.mem_append.1 hp).elim (hroot p) (hname p))
  rw [osPath, cleanParts]
  simp only
  rw [this, List.nil_append, List.filter_append]

/-- The exception: with ".." in the name a file outside of the directory is opened. -/
theorem C75_escape : osPath "/srv/data".toList "../../etc/passwd".toList = (true, ["etc".toList, "passwd".toList]) := by decide

theorem splitSlash_ne (s : List Char) : splitSlash s ≠ [] := by
  cases s with
  | nil => simp [splitSlash]
  | cons c s => rw [splitSlash]; split <;> simp

theorem splitSlash_append_slash (a b : List Char) : splitSlash (a ++ '/' :: b) = splitSlash a ++ splitSlash b := by
  induction a with
  | nil => simp [splitSlash]
  | cons c a ih =>
    rw [List.cons_append, splitSlash, splitSlash, ih]
    split
    · simp
    · have := splitSlash_ne a
      cases hs : splitSlash a with
      | nil => exact absurd hs this
      | cons x xs => simp

theorem splitSlash_plain (s : List Char) (h : '/' ∉ s) : splitSlash s = [s] := by
  induction s with
  | nil => rfl
  | cons c s ih =>
    simp only [List.mem_cons, not_or] at h
    rw [splitSlash, if_neg (fun e => h.1 e.symm), ih h.2]
    rfl

/-- The name of a listed entry: opened again (unless another file system is mounted below) it is asked from the same file system, and it is
the entry of that directory.  The name of the directory is empty or ends with a slash. -/
theorem C75_listing (tab : List (MPoint F)) (mpt rel entry : List Char) (isDir : Bool) (fs : F) (root : List Char)
    (hopen : openFs tab (mpt ++ rel) = .ok (fs, rel, mpt))
    (hbelow : ∀ t ∈ tab, t.mpt <+: listName mpt rel entry isDir → t.mpt <+: mpt ++ rel)
    (hrel : rel = [] ∨ ['/'] <:+ rel) (hentry : '/' ∉ entry) (hplain : PlainName entry)
    (hroot : ∀ p ∈ splitSlash root, p ≠ ['.', '.']) (hname : ∀ p ∈ splitSlash rel, p ≠ ['.', '.']) :
    openFs tab (listName mpt rel entry isDir) = .ok (fs, rel ++ entry ++ (if isDir then ['/'] else []), mpt) ∧
    (osPath root (rel ++ entry ++ (if isDir then ['/'] else []))).2 = (osPath root rel).2 ++ [entry] := by
  constructor
  · refine ((C74_open tab _).1 _ _ _).2 ⟨by simp [listName], ?_⟩
    obtain ⟨t1, t2, e, h1, h2⟩ := (((C74_open tab _).1 fs rel mpt).1 hopen).2
    refine ⟨t1, t2, e, ⟨rel ++ entry ++ (if isDir then ['/'] else []), by simp [listName]⟩, ?_⟩
    intro u hu hp
    exact h2 u hu (hbelow u (by rw [e]; simp [hu]) hp)
  · have hent : splitSlash (entry ++ (if isDir then ['/'] else [])) = entry :: (if isDir then [[]] else []) := by
      cases isDir with
      | false => simp [splitSlash_plain entry hentry]
      | true =>
        have := splitSlash_append_slash entry []
        simp only [if_true]
        rw [this, splitSlash_plain entry hentry]
        rfl
    have hsplit : (splitSlash (rel ++ entry ++ (if isDir then ['/'] else []))).filter (fun p => p ≠ [] ∧ p ≠ ['.']) =
        (splitSlash rel).filter (fun p => p ≠ [] ∧ p ≠ ['.']) ++ [entry] ∧
        ∀ p ∈ splitSlash (rel ++ entry ++ (if isDir then ['/'] else [])), p ≠ ['.', '.'] := by
      have hf : (entry :: (if isDir then [([] : List Char)] else [])).filter (fun p => p ≠ [] ∧ p ≠ ['.']) = [entry] := by
        rw [List.filter_cons_of_pos (by simp [hplain.1, hplain.2.1])]
        cases isDir <;> simp
      have hd : ∀ p ∈ entry :: (if isDir then [([] : List Char)] else []), p ≠ ['.', '.'] := by
        intro p hp
        rcases List.mem_cons.1 hp with rfl | hp
        · exact hplain.2.2
        · cases isDir with
          | false => cases hp
          | true => rw [List.mem_singleton.1 hp]; decide
      rw [List.append_assoc]
      rcases hrel with rfl | ⟨r, rfl⟩
      · rw [List.nil_append, hent, hf]
        exact ⟨by simp [splitSlash], hd⟩
      · have e1 := splitSlash_append_slash r (entry ++ (if isDir then ['/'] else []))
        have e2 := splitSlash_append_slash r []
        rw [List.append_assoc, List.singleton_append, e1, hent, List.filter_append, hf, show r ++ ['/'] = r ++ '/' :: [] from rfl, e2]
        refine ⟨by simp [splitSlash], ?_⟩
        intro p hp
        rcases List.mem_append.1 hp with hp | hp
        · exact hname p (by rw [show r ++ ['/'] = r ++ '/' :: [] from rfl, e2]; exact List.mem_append_left _ hp)
        · exact hd p hp
    rw [C75_inside root _ hroot hsplit.2, C75_inside root rel hroot hname, hsplit.1, List.append_assoc]

/-- If a directory is opened without the final slash, the names in its listing are wrong. -/
theorem C75_listing_without_slash : listName "/".toList "dir".toList "file".toList false = "/dirfile".toList := by decide

/- A concrete history: the standard mounts, and a directory over them. -/
def mountDemo : List (MPoint Nat) :=
  mountTable [.mount "/".toList 1, .mount "/v/".toList 2, .mount "/e/".toList 3, .mount "/x".toList 9, .mount "/v/".toList 8, .umount "/e/".toList, .mount "/v/w/".toList 4]

example : mountDemo.map (fun t => (String.ofList t.mpt, t.src)) = [("/", 1), ("/v/", 2), ("/v/w/", 4)] := by decide
example : (openFs mountDemo "/v/w/a".toList).toOption = some (4, "a".toList, "/v/w/".toList) ∧
    (openFs mountDemo "/v/x".toList).toOption = some (2, "x".toList, "/v/".toList) ∧ (openFs mountDemo "/e/HOME".toList).toOption = some (1, "e/HOME".toList, "/".toList) ∧
    (openFs mountDemo "rel".toList).toOption = none := by decide
example : osPath "/srv/data".toList "a/./b//c".toList = (true, ["srv".toList, "data".toList, "a".toList, "b".toList, "c".toList]) := by decide

/- the hypotheses of C75_listing for a directory below a mounted one -/
example : openFs mountDemo (listName "/v/w/".toList "sub/".toList "file".toList true) = .ok (4, "sub/file/".toList, "/v/w/".toList) ∧
    (osPath "/srv".toList "sub/file/".toList).2 = (osPath "/srv".toList "sub/".toList).2 ++ ["file".toList] :=
  C75_listing mountDemo "/v/w/".toList "sub/".toList "file".toList true 4 "/srv".toList (by rfl)
    (by
      have h : mountDemo = [⟨"/".toList, 1⟩, ⟨"/v/".toList, 2⟩, ⟨"/v/w/".toList, 4⟩] := by rfl
      rw [h]
      intro t ht _
      simp only [List.mem_cons, List.not_mem_nil, or_false] at ht
      rcases ht with rfl | rfl | rfl <;> decide)
    (.inr (by decide)) (by decide) (by unfold PlainName; decide) (by decide) (by decide)

end Iv

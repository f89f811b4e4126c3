import Verif.SpecAlias
import Mathlib.Data.List.Forall2
/-
Lemmas about the heap: what a value uses, reading, writing and copying.
-/
namespace Iv

variable {A T : Type}

theorem hm_bind {α β : Type} (m : HM A T α) (k : α → HM A T β) (h : Heap A T) (r : Except Fail β) (h' : Heap A T) :
    (m >>= k) h = some (r, h') ↔
      (∃ e, m h = some (.error e, h') ∧ r = .error e) ∨ ∃ a h1, m h = some (.ok a, h1) ∧ k a h1 = some (r, h') := by
  show (match m h with
    | none => none
    | some (.error e, h') => some (.error e, h')
    | some (.ok a, h') => k a h') = some (r, h') ↔ _
  rcases m h with _ | ⟨e | a, h1⟩
  · simp
  · simp [and_comm, eq_comm]
  · simp

theorem hm_pure {α : Type} (a : α) (h : Heap A T) (r : Except Fail α) (h' : Heap A T) :
    (pure a : HM A T α) h = some (r, h') ↔ r = .ok a ∧ h' = h := by
  show some (Except.ok a, h) = some (r, h') ↔ _
  simp [eq_comm]

theorem hm_fail {α : Type} (e : Fail) (h : Heap A T) (r : Except Fail α) (h' : Heap A T) :
    (failH e : HM A T α) h = some (r, h') ↔ r = .error e ∧ h' = h := by
  show some (Except.error e, h) = some (r, h') ↔ _
  simp [eq_comm]

theorem hm_pureH {α : Type} (x : Res α) (h : Heap A T) (r : Except Fail α) (h' : Heap A T) :
    (pureH x : HM A T α) h = some (r, h') ↔ r = x ∧ h' = h := by
  show some (x, h) = some (r, h') ↔ _
  simp [eq_comm]

theorem asSlots_ok {o : Option (Obj A T)} {l : List (HV A T)} : Obj.asSlots o = .ok l ↔ o = some (.slots l) := by
  unfold Obj.asSlots; split <;> simp_all

theorem asDims_ok {o : Option (Obj A T)} {l : List Nat} : Obj.asDims o = .ok l ↔ o = some (.dims l) := by
  unfold Obj.asDims; split <;> simp_all

theorem asDict_ok {o : Option (Obj A T)} {km : List A × List (A × HV A T)} : Obj.asDict o = .ok km ↔ o = some (.dict km.1 km.2) := by
  unfold Obj.asDict
  split
  · rename_i k m
    constructor
    · intro e; cases e; rfl
    · intro e; cases km; cases e; rfl
  · rename_i hn
    constructor
    · intro e; cases e
    · intro e; exact absurd e (hn _ _)

theorem hm_getSlots (p : Nat) (h : Heap A T) (r) (h' : Heap A T) :
    (getSlots p : HM A T _) h = some (r, h') ↔ r = Obj.asSlots h[p]? ∧ h' = h := by
  show some (Obj.asSlots h[p]?, h) = some (r, h') ↔ _
  simp [eq_comm]

theorem hm_getDims (p : Nat) (h : Heap A T) (r) (h' : Heap A T) :
    (getDims p : HM A T _) h = some (r, h') ↔ r = Obj.asDims h[p]? ∧ h' = h := by
  show some (Obj.asDims h[p]?, h) = some (r, h') ↔ _
  simp [eq_comm]

theorem hm_getDict (p : Nat) (h : Heap A T) (r) (h' : Heap A T) :
    (getDict p : HM A T _) h = some (r, h') ↔ r = Obj.asDict h[p]? ∧ h' = h := by
  show some (Obj.asDict h[p]?, h) = some (r, h') ↔ _
  simp [eq_comm]

theorem hm_alloc (o : Obj A T) (h : Heap A T) (r) (h' : Heap A T) :
    (alloc o : HM A T _) h = some (r, h') ↔ r = .ok h.length ∧ h' = h ++ [o] := by
  show some (Except.ok h.length, h ++ [o]) = some (r, h') ↔ _
  simp [eq_comm]

theorem hm_put (p : Nat) (o : Obj A T) (h : Heap A T) (r) (h' : Heap A T) :
    (putObj p o : HM A T _) h = some (r, h') ↔ r = .ok () ∧ h' = h.set p o := by
  show some (Except.ok (), h.set p o) = some (r, h') ↔ _
  simp [eq_comm]

/-! ## What a value uses -/

theorem uses_agree {h h' : Heap A T} {v : HV A T} (ha : ∀ p, Uses h v p → h'[p]? = h[p]?) (p : Nat) :
    Uses h' v p ↔ Uses h v p := by
  constructor
  · intro hu
    induction hu with
    | here hp => exact .here hp
    | there hq ho hw _ ih =>
      rw [ha _ (.here hq)] at ho
      exact .there hq ho hw (ih (fun p hp => ha p (.there hq ho hw hp)))
  · intro hu
    induction hu with
    | here hp => exact .here hp
    | there hq ho hw _ ih =>
      exact .there hq ((ha _ (.here hq)).trans ho) hw (ih (fun p hp => ha p (.there hq ho hw hp)))

theorem mapM_congr_opt {α β : Type} {f g : α → Option β} : ∀ {l : List α}, (∀ x, x ∈ l → f x = g x) → l.mapM f = l.mapM g
  | [], _ => rfl
  | x :: l, h => by
    rw [List.mapM_cons, List.mapM_cons, h x (List.mem_cons_self ..), mapM_congr_opt (fun y hy => h y (List.mem_cons_of_mem _ hy))]

theorem dimsAt_eq {h h' : Heap A T} {p : Nat} (e : h'[p]? = h[p]?) : dimsAt h' p = dimsAt h p := by unfold dimsAt; rw [e]
theorem slotsAt_eq {h h' : Heap A T} {p : Nat} (e : h'[p]? = h[p]?) : slotsAt h' p = slotsAt h p := by unfold slotsAt; rw [e]
theorem dictAt_eq {h h' : Heap A T} {p : Nat} (e : h'[p]? = h[p]?) : dictAt h' p = dictAt h p := by unfold dictAt; rw [e]

theorem slotsAt_some {h : Heap A T} {p : Nat} {l} : slotsAt h p = some l ↔ h[p]? = some (.slots l) := by
  unfold slotsAt; split <;> simp_all

theorem dimsAt_some {h : Heap A T} {p : Nat} {l} : dimsAt h p = some l ↔ h[p]? = some (.dims l) := by
  unfold dimsAt; split <;> simp_all

theorem dictAt_some {h : Heap A T} {p : Nat} {km} : dictAt h p = some km ↔ h[p]? = some (.dict km.1 km.2) := by
  unfold dictAt
  split
  · rename_i k m e
    constructor
    · intro e'; cases e'; exact e
    · intro e'; rw [e] at e'; cases km; cases e'; rfl
  · rename_i hn
    constructor
    · intro e; cases e
    · intro e; exact absurd e (hn _ _)

theorem tree_agree {h h' : Heap A T} : ∀ (n : Nat) (v : HV A T), (∀ p, Uses h v p → h'[p]? = h[p]?) →
    treeOf h' n v = treeOf h n v
  | 0, _, _ => rfl
  | _ + 1, .atom _, _ => rfl
  | _ + 1, .empty, _ => rfl
  | n + 1, .arr ty d p, ha => by
    rw [treeOf, treeOf, dimsAt_eq (ha d (.here (by simp [HV.addrs]))), slotsAt_eq (ha p (.here (by simp [HV.addrs])))]
    cases hl : slotsAt h p with
    | none => rfl
    | some l =>
      simp only [Option.bind_eq_bind, Option.bind_some]
      rw [mapM_congr_opt (f := treeOf h' n) (g := treeOf h n) (l := l) (fun w hw => tree_agree n w (fun q hq =>
        ha q (.there (q := p) (by simp [HV.addrs]) (slotsAt_some.1 hl) hw hq)))]
  | n + 1, .list p, ha => by
    rw [treeOf, treeOf, slotsAt_eq (ha p (.here (by simp [HV.addrs])))]
    cases hl : slotsAt h p with
    | none => rfl
    | some l =>
      simp only [Option.bind_eq_bind, Option.bind_some]
      rw [mapM_congr_opt (f := treeOf h' n) (g := treeOf h n) (l := l) (fun w hw => tree_agree n w (fun q hq =>
        ha q (.there (q := p) (by simp [HV.addrs]) (slotsAt_some.1 hl) hw hq)))]
  | n + 1, .dict p, ha => by
    rw [treeOf, treeOf, dictAt_eq (ha p (.here (by simp [HV.addrs])))]
    cases hl : dictAt h p with
    | none => rfl
    | some km =>
      simp only [Option.bind_eq_bind, Option.bind_some]
      rw [mapM_congr_opt (g := fun e => (treeOf h n e.2).map (fun t => (e.1, t))) (fun e he => by
        rw [tree_agree n e.2 (fun q hq =>
          ha q (.there (q := p) (by simp [HV.addrs]) (dictAt_some.1 hl) (List.mem_map.2 ⟨e, he, rfl⟩) hq))])]
  | n + 1, .table p rows, ha => by
    rw [treeOf, treeOf, dictAt_eq (ha p (.here (by simp [HV.addrs])))]
    cases hl : dictAt h p with
    | none => rfl
    | some km =>
      simp only [Option.bind_eq_bind, Option.bind_some]
      rw [mapM_congr_opt (g := fun e => (treeOf h n e.2).map (fun t => (e.1, t))) (fun e he => by
        rw [tree_agree n e.2 (fun q hq =>
          ha q (.there (q := p) (by simp [HV.addrs]) (dictAt_some.1 hl) (List.mem_map.2 ⟨e, he, rfl⟩) hq))])]

theorem uses_valid {h : Heap A T} (hv : HeapValid h) {v : HV A T} {p : Nat} (hu : Uses h v p) (hvv : v.Valid h) : p < h.length := by
  induction hu with
  | here hp => exact hvv _ hp
  | there hq ho hw _ ih => exact ih (hv _ _ ho _ hw)

/-- the new heap starts with the old one -/
def Ext (h h' : Heap A T) : Prop := ∃ new, h' = h ++ new

theorem Ext.refl (h : Heap A T) : Ext h h := ⟨[], by simp⟩
theorem Ext.trans {h1 h2 h3 : Heap A T} : Ext h1 h2 → Ext h2 h3 → Ext h1 h3
  | ⟨a, e⟩, ⟨b, e'⟩ => ⟨a ++ b, by rw [e', e, List.append_assoc]⟩
theorem Ext.length {h h' : Heap A T} : Ext h h' → h.length ≤ h'.length
  | ⟨a, e⟩ => by rw [e]; simp
theorem Ext.get {h h' : Heap A T} (e : Ext h h') {p : Nat} (hp : p < h.length) : h'[p]? = h[p]? := by
  obtain ⟨a, rfl⟩ := e
  rw [List.getElem?_append_left hp]

theorem HV.Valid.mono {h h' : Heap A T} {v : HV A T} (hv : v.Valid h) (hl : h.length ≤ h'.length) : v.Valid h' :=
  fun p hp => Nat.lt_of_lt_of_le (hv p hp) hl

theorem uses_ext {h h' : Heap A T} (e : Ext h h') (hh : HeapValid h) {v : HV A T} (hv : v.Valid h) (p : Nat) : Uses h' v p ↔ Uses h v p :=
  uses_agree (fun _ hq => e.get (uses_valid hh hq hv)) p

theorem tree_ext {h h' : Heap A T} (e : Ext h h') (hh : HeapValid h) {v : HV A T} (hv : v.Valid h) (n : Nat) :
    treeOf h' n v = treeOf h n v :=
  tree_agree n v (fun _ hq => e.get (uses_valid hh hq hv))

theorem alloc_ext (h : Heap A T) (o : Obj A T) : Ext h (h ++ [o]) := ⟨[o], rfl⟩

theorem alloc_valid {h : Heap A T} (hh : HeapValid h) {o : Obj A T} (ho : ∀ w, w ∈ o.refs → w.Valid h) : HeapValid (h ++ [o]) := by
  intro p o' hp w hw
  refine HV.Valid.mono (h := h) ?_ (by simp)
  rcases Nat.lt_or_ge p h.length with hlt | hge
  · rw [List.getElem?_append_left hlt] at hp
    exact hh p o' hp w hw
  · rw [List.getElem?_append_right hge] at hp
    cases hk : p - h.length with
    | zero => rw [hk] at hp; cases hp; exact ho w hw
    | succ k => rw [hk] at hp; simp at hp

/-- Overwriting an object: what is used afterwards was used before, or is used by a new part. -/
theorem uses_set {h : Heap A T} {q : Nat} {o : Obj A T} {W : HV A T → Prop}
    (hw : ∀ w, w ∈ o.refs → (∃ o', h[q]? = some o' ∧ w ∈ o'.refs) ∨ W w) {v : HV A T} {p : Nat} (hu : Uses (h.set q o) v p) :
    Uses h v p ∨ ∃ w, W w ∧ Uses h w p := by
  induction hu with
  | here hp => exact Or.inl (.here hp)
  | @there v w' o' p q' hq ho hw' _ ih =>
    rcases ih with hu | hu
    · by_cases hqq : q = q'
      · subst hqq
        rw [List.getElem?_set] at ho
        split at ho
        · split at ho
          · cases ho
            rcases hw _ hw' with ⟨o'', ho'', hw''⟩ | hW
            · exact Or.inl (.there hq ho'' hw'' hu)
            · exact Or.inr ⟨_, hW, hu⟩
          · cases ho
        · exact Or.inl (.there hq ho hw' hu)
      · rw [List.getElem?_set_ne hqq] at ho
        exact Or.inl (.there hq ho hw' hu)
    · exact Or.inr hu

/-! ## Copying -/

/-- what a copy of `v` in the extended heap is -/
def CopyOf (h h' : Heap A T) (v w : HV A T) : Prop :=
  w.Valid h' ∧ (∀ p, Uses h' w p → h.length ≤ p) ∧ ∀ m, treeOf h' m w = treeOf h m v

theorem CopyOf.ext {h h0 h' h'' : Heap A T} {v w : HV A T} (c : CopyOf h h' v w) (e0 : Ext h0 h) (hh : HeapValid h0) (hv : v.Valid h0)
    (hh' : HeapValid h') (e : Ext h' h'') : CopyOf h0 h'' v w := by
  refine ⟨c.1.mono e.length, fun p hp => ?_, fun m => ?_⟩
  · exact Nat.le_trans e0.length (c.2.1 p ((uses_ext e hh' c.1 p).1 hp))
  · rw [tree_ext e hh' c.1, c.2.2 m, tree_ext e0 hh hv]

/-- the specification of a copying function -/
def Copies (c : HV A T → HM A T (HV A T)) : Prop :=
  ∀ h v r h', c v h = some (r, h') → HeapValid h → v.Valid h →
    Ext h h' ∧ HeapValid h' ∧ ∀ w, r = .ok w → CopyOf h h' v w

theorem copyAll_spec {c : HV A T → HM A T (HV A T)} (hc : Copies c) : ∀ (l : List (HV A T)) (h : Heap A T) (r) (h' : Heap A T),
    copyAll c l h = some (r, h') → HeapValid h → (∀ v, v ∈ l → v.Valid h) →
      Ext h h' ∧ HeapValid h' ∧ ∀ ws, r = .ok ws → List.Forall₂ (CopyOf h h') l ws
  | [], h, r, h', e, hh, _ => by
    rw [copyAll, hm_pure] at e
    obtain ⟨rfl, rfl⟩ := e
    exact ⟨Ext.refl _, hh, fun ws hws => by cases hws; exact .nil⟩
  | v :: l, h, r, h', e, hh, hv => by
    rw [copyAll, hm_bind] at e
    have hv0 := hv v (List.mem_cons_self ..)
    rcases e with ⟨er, e, rfl⟩ | ⟨w, h1, e1, e⟩
    · obtain ⟨a, b, _⟩ := hc h v _ _ e hh hv0
      exact ⟨a, b, fun _ hr => by cases hr⟩
    · obtain ⟨x1, hh1, c1⟩ := hc h v _ _ e1 hh hv0
      have c1 := c1 w rfl
      rw [hm_bind] at e
      rcases e with ⟨er, e, rfl⟩ | ⟨ws, h2, e2, e⟩
      · obtain ⟨a, b, _⟩ := copyAll_spec hc l h1 _ _ e hh1 (fun u hu => (hv u (List.mem_cons_of_mem _ hu)).mono x1.length)
        exact ⟨x1.trans a, b, fun _ hr => by cases hr⟩
      · obtain ⟨x2, hh2, c2⟩ := copyAll_spec hc l h1 _ _ e2 hh1 (fun u hu => (hv u (List.mem_cons_of_mem _ hu)).mono x1.length)
        rw [hm_pure] at e
        obtain ⟨rfl, rfl⟩ := e
        refine ⟨x1.trans x2, hh2, fun us hus => ?_⟩
        cases hus
        refine .cons (c1.ext (Ext.refl _) hh hv0 hh1 x2) ?_
        have c2 := c2 ws rfl
        rw [List.forall₂_iff_get] at c2 ⊢
        refine ⟨c2.1, fun i h1' h2' => (c2.2 i h1' h2').ext x1 hh (hv _ (List.mem_cons_of_mem _ (List.getElem_mem _))) hh2 (Ext.refl _)⟩

theorem copyMap_spec {c : HV A T → HM A T (HV A T)} (hc : Copies c) : ∀ (l : List (A × HV A T)) (h : Heap A T) (r) (h' : Heap A T),
    copyMap c l h = some (r, h') → HeapValid h → (∀ e, e ∈ l → e.2.Valid h) →
      Ext h h' ∧ HeapValid h' ∧ ∀ ws, r = .ok ws → List.Forall₂ (fun e e' => e'.1 = e.1 ∧ CopyOf h h' e.2 e'.2) l ws
  | [], h, r, h', e, hh, _ => by
    rw [copyMap, hm_pure] at e
    obtain ⟨rfl, rfl⟩ := e
    exact ⟨Ext.refl _, hh, fun ws hws => by cases hws; exact .nil⟩
  | (k, v) :: l, h, r, h', e, hh, hv => by
    rw [copyMap, hm_bind] at e
    have hv0 := hv (k, v) (List.mem_cons_self ..)
    rcases e with ⟨er, e, rfl⟩ | ⟨w, h1, e1, e⟩
    · obtain ⟨a, b, _⟩ := hc h v _ _ e hh hv0
      exact ⟨a, b, fun _ hr => by cases hr⟩
    · obtain ⟨x1, hh1, c1⟩ := hc h v _ _ e1 hh hv0
      have c1 := c1 w rfl
      rw [hm_bind] at e
      rcases e with ⟨er, e, rfl⟩ | ⟨ws, h2, e2, e⟩
      · obtain ⟨a, b, _⟩ := copyMap_spec hc l h1 _ _ e hh1 (fun u hu => (hv u (List.mem_cons_of_mem _ hu)).mono x1.length)
        exact ⟨x1.trans a, b, fun _ hr => by cases hr⟩
      · obtain ⟨x2, hh2, c2⟩ := copyMap_spec hc l h1 _ _ e2 hh1 (fun u hu => (hv u (List.mem_cons_of_mem _ hu)).mono x1.length)
        rw [hm_pure] at e
        obtain ⟨rfl, rfl⟩ := e
        refine ⟨x1.trans x2, hh2, fun us hus => ?_⟩
        cases hus
        refine .cons ⟨rfl, c1.ext (Ext.refl _) hh hv0 hh1 x2⟩ ?_
        have c2 := c2 ws rfl
        rw [List.forall₂_iff_get] at c2 ⊢
        refine ⟨c2.1, fun i h1' h2' => ⟨(c2.2 i h1' h2').1,
          (c2.2 i h1' h2').2.ext x1 hh (hv _ (List.mem_cons_of_mem _ (List.getElem_mem _))) hh2 (Ext.refl _)⟩⟩

theorem mapM_forall2 {α β γ : Type} {f : α → Option γ} {g : β → Option γ} {l : List α} {m : List β}
    (hf : List.Forall₂ (fun a b => g b = f a) l m) : m.mapM g = l.mapM f := by
  induction hf with
  | nil => rfl
  | cons h _ ih => rw [List.mapM_cons, List.mapM_cons, h, ih]

theorem forall2_right_mem {α β : Type} {R : α → β → Prop} {l : List α} {m : List β} (hf : List.Forall₂ R l m) {b : β} (hb : b ∈ m) :
    ∃ a, a ∈ l ∧ R a b := by
  induction hf with
  | nil => cases hb
  | cons h _ ih =>
    rcases List.mem_cons.1 hb with rfl | hb
    · exact ⟨_, List.mem_cons_self .., h⟩
    · obtain ⟨a, ha, hr⟩ := ih hb
      exact ⟨a, List.mem_cons_of_mem _ ha, hr⟩

/-- allocating an object whose parts are copies -/
theorem copies_alloc {h h1 : Heap A T} (x : Ext h h1) (hh1 : HeapValid h1) {o : Obj A T}
    (hr : ∀ w, w ∈ o.refs → w.Valid h1 ∧ ∀ p, Uses h1 w p → h.length ≤ p) {v : HV A T}
    (hv : ∀ p, p ∈ v.addrs → h.length ≤ p ∧ p ≤ h1.length ∧ (p < h1.length → ∃ l : List Nat, h1[p]? = some (.dims l))) :
    Ext h (h1 ++ [o]) ∧ HeapValid (h1 ++ [o]) ∧ v.Valid (h1 ++ [o]) ∧ ∀ p, Uses (h1 ++ [o]) v p → h.length ≤ p := by
  have hval := alloc_valid hh1 (o := o) (fun w hw => (hr w hw).1)
  refine ⟨x.trans (alloc_ext _ _), hval, fun p hp => ?_, fun p hp => ?_⟩
  · have := (hv p hp).2.1; simp; omega
  · cases hp with
    | here hp => exact (hv p hp).1
    | there hq ho hw hu =>
      obtain ⟨ha, hb, hc⟩ := hv _ hq
      rcases Nat.lt_or_ge _ h1.length with hlt | hge
      · obtain ⟨l, hl⟩ := hc hlt
        rw [List.getElem?_append_left hlt, hl] at ho
        cases ho
        cases hw
      · have : _ = h1.length := Nat.le_antisymm hb hge
        subst this
        rw [List.getElem?_append_right (Nat.le_refl _), Nat.sub_self] at ho
        cases ho
        exact (hr _ hw).2 p ((uses_ext (alloc_ext _ _) hh1 (hr _ hw).1 p).1 hu)

theorem copyV_copies : ∀ n, Copies (copyV n : HV A T → HM A T (HV A T))
  | 0 => fun h v r h' e => by cases v <;> cases e
  | n + 1 => fun h v r h' e hh hv => by
    cases v with
    | atom a =>
      rw [copyV, hm_pure] at e
      obtain ⟨rfl, rfl⟩ := e
      refine ⟨Ext.refl _, hh, fun w hw => ?_⟩
      cases hw
      refine ⟨hv, fun p hp => ?_, fun _ => rfl⟩
      cases hp with
      | here h => cases h
      | there h => cases h
    | empty =>
      rw [copyV, hm_pure] at e
      obtain ⟨rfl, rfl⟩ := e
      refine ⟨Ext.refl _, hh, fun w hw => ?_⟩
      cases hw
      refine ⟨hv, fun p hp => ?_, fun _ => rfl⟩
      cases hp with
      | here h => cases h
      | there h => cases h
    | arr ty d p =>
      simp only [copyV, hm_bind, hm_getDims, hm_getSlots, hm_alloc, hm_pure] at e
      rcases e with ⟨er, ⟨_, rfl⟩, rfl⟩ | ⟨s, h1, ⟨es, rfl⟩, e⟩
      · exact ⟨Ext.refl _, hh, fun w hw => by cases hw⟩
      rcases e with ⟨er, ⟨hx, _⟩, _⟩ | ⟨d', h2, ⟨ed, rfl⟩, e⟩
      · cases hx
      cases ed
      have x1 := alloc_ext h1 (Obj.dims s : Obj A T)
      have hh1 : HeapValid (h1 ++ [(Obj.dims s : Obj A T)]) := alloc_valid hh (fun w hw => by cases hw)
      rcases e with ⟨er, ⟨_, rfl⟩, rfl⟩ | ⟨l, h3, ⟨el, rfl⟩, e⟩
      · exact ⟨x1, hh1, fun w hw => by cases hw⟩
      have el := asSlots_ok.1 el.symm
      have hlv : ∀ u, u ∈ l → u.Valid (h1 ++ [(Obj.dims s : Obj A T)]) := hh1 p _ el
      rcases e with ⟨er, ec, rfl⟩ | ⟨l', h4, ec, e⟩
      · obtain ⟨x2, hh2, _⟩ := copyAll_spec (copyV_copies n) l _ _ _ ec hh1 hlv
        exact ⟨x1.trans x2, hh2, fun w hw => by cases hw⟩
      obtain ⟨x2, hh2, c2⟩ := copyAll_spec (copyV_copies n) l _ _ _ ec hh1 hlv
      have c2 := c2 l' rfl
      rcases e with ⟨er, ⟨hx, _⟩, _⟩ | ⟨p', h5, ⟨ep, rfl⟩, rfl, rfl⟩
      · cases hx
      cases ep
      have hd : h4[h1.length]? = some (.dims s) := by
        rw [x2.get (by simp)]; simp
      have hp : p < h1.length := hv p (by simp [HV.addrs])
      obtain ⟨x3, hh3, vv, vu⟩ := copies_alloc (x1.trans x2) hh2 (o := .slots l') (v := .arr ty h1.length h4.length)
        (fun w hw => by
          obtain ⟨u, hu, c⟩ := forall2_right_mem c2 hw
          exact ⟨c.1, fun q hq => Nat.le_trans x1.length (c.2.1 q hq)⟩)
        (fun q hq => by
          simp only [HV.addrs, List.mem_cons, List.not_mem_nil, or_false] at hq
          rcases hq with rfl | rfl
          · exact ⟨Nat.le_refl _, (x1.trans x2).length, fun _ => ⟨s, hd⟩⟩
          · exact ⟨(x1.trans x2).length, Nat.le_refl _, fun hlt => absurd hlt (Nat.lt_irrefl _)⟩)
      refine ⟨x3, hh3, fun w hw => ?_⟩
      cases hw
      refine ⟨vv, vu, fun m => ?_⟩
      cases m with
      | zero => rfl
      | succ m =>
        have e1 : dimsAt (h4 ++ [Obj.slots l']) h1.length = some s :=
          dimsAt_some.2 (by rw [(alloc_ext h4 _).get (by have := x2.length; simp at this; omega)]; exact hd)
        have e2 : slotsAt (h4 ++ [Obj.slots l']) h4.length = some l' := slotsAt_some.2 (by simp)
        have e3 : dimsAt h1 d = some s := dimsAt_some.2 (asDims_ok.1 es.symm)
        have e4 : slotsAt h1 p = some l := slotsAt_some.2 (by rw [← x1.get hp]; exact el)
        rw [treeOf, treeOf, e1, e2, e3, e4]
        simp only [Option.bind_eq_bind, Option.bind_some]
        rw [mapM_forall2 (f := treeOf h1 m) (l := l)]
        refine (List.forall₂_iff_get.2 ⟨c2.length_eq, fun i h1' h2' => ?_⟩)
        have c := (List.forall₂_iff_get.1 c2).2 i h1' h2'
        rw [tree_ext (alloc_ext h4 _) hh2 c.1, c.2.2 m]
        exact tree_ext x1 hh (hh p _ (slotsAt_some.1 e4) _ (List.getElem_mem _)) m
    | list p =>
      simp only [copyV, hm_bind, hm_getSlots, hm_alloc, hm_pure] at e
      rcases e with ⟨er, ⟨_, rfl⟩, rfl⟩ | ⟨l, h3, ⟨el, rfl⟩, e⟩
      · exact ⟨Ext.refl _, hh, fun w hw => by cases hw⟩
      have el := asSlots_ok.1 el.symm
      have hlv : ∀ u, u ∈ l → u.Valid h3 := hh p _ el
      rcases e with ⟨er, ec, rfl⟩ | ⟨l', h4, ec, e⟩
      · obtain ⟨x2, hh2, _⟩ := copyAll_spec (copyV_copies n) l _ _ _ ec hh hlv
        exact ⟨x2, hh2, fun w hw => by cases hw⟩
      obtain ⟨x2, hh2, c2⟩ := copyAll_spec (copyV_copies n) l _ _ _ ec hh hlv
      have c2 := c2 l' rfl
      rcases e with ⟨er, ⟨hx, _⟩, _⟩ | ⟨p', h5, ⟨ep, rfl⟩, rfl, rfl⟩
      · cases hx
      cases ep
      obtain ⟨x3, hh3, vv, vu⟩ := copies_alloc x2 hh2 (o := .slots l') (v := .list h4.length)
        (fun w hw => by
          obtain ⟨u, hu, c⟩ := forall2_right_mem c2 hw
          exact ⟨c.1, c.2.1⟩)
        (fun q hq => by
          simp only [HV.addrs, List.mem_cons, List.not_mem_nil, or_false] at hq
          subst hq
          exact ⟨x2.length, Nat.le_refl _, fun hlt => absurd hlt (Nat.lt_irrefl _)⟩)
      refine ⟨x3, hh3, fun w hw => ?_⟩
      cases hw
      refine ⟨vv, vu, fun m => ?_⟩
      cases m with
      | zero => rfl
      | succ m =>
        have e2 : slotsAt (h4 ++ [Obj.slots l']) h4.length = some l' := slotsAt_some.2 (by simp)
        have e4 : slotsAt h3 p = some l := slotsAt_some.2 el
        rw [treeOf, treeOf, e2, e4]
        simp only [Option.bind_eq_bind, Option.bind_some]
        rw [mapM_forall2 (f := treeOf h3 m) (l := l)]
        refine (List.forall₂_iff_get.2 ⟨c2.length_eq, fun i h1' h2' => ?_⟩)
        have c := (List.forall₂_iff_get.1 c2).2 i h1' h2'
        rw [tree_ext (alloc_ext h4 _) hh2 c.1, c.2.2 m]
    | dict p =>
      simp only [copyV, hm_bind, hm_getDict, hm_alloc, hm_pure] at e
      rcases e with ⟨er, ⟨_, rfl⟩, rfl⟩ | ⟨km, h3, ⟨el, rfl⟩, e⟩
      · exact ⟨Ext.refl _, hh, fun w hw => by cases hw⟩
      have el := asDict_ok.1 el.symm
      have hlv : ∀ u, u ∈ km.2 → u.2.Valid h3 := fun u hu => hh p _ el _ (List.mem_map.2 ⟨u, hu, rfl⟩)
      rcases e with ⟨er, ec, rfl⟩ | ⟨l', h4, ec, e⟩
      · obtain ⟨x2, hh2, _⟩ := copyMap_spec (copyV_copies n) km.2 _ _ _ ec hh hlv
        exact ⟨x2, hh2, fun w hw => by cases hw⟩
      obtain ⟨x2, hh2, c2⟩ := copyMap_spec (copyV_copies n) km.2 _ _ _ ec hh hlv
      have c2 := c2 l' rfl
      rcases e with ⟨er, ⟨hx, _⟩, _⟩ | ⟨p', h5, ⟨ep, rfl⟩, rfl, rfl⟩
      · cases hx
      cases ep
      obtain ⟨x3, hh3, vv, vu⟩ := copies_alloc x2 hh2 (o := .dict km.1 l') (v := .dict h4.length)
        (fun w hw => by
          obtain ⟨e', he', rfl⟩ := List.mem_map.1 hw
          obtain ⟨u, hu, c⟩ := forall2_right_mem c2 he'
          exact ⟨c.2.1, c.2.2.1⟩)
        (fun q hq => by
          simp only [HV.addrs, List.mem_cons, List.not_mem_nil, or_false] at hq
          subst hq
          exact ⟨x2.length, Nat.le_refl _, fun hlt => absurd hlt (Nat.lt_irrefl _)⟩)
      refine ⟨x3, hh3, fun w hw => ?_⟩
      cases hw
      refine ⟨vv, vu, fun m => ?_⟩
      cases m with
      | zero => rfl
      | succ m =>
        have e2 : dictAt (h4 ++ [Obj.dict km.1 l']) h4.length = some (km.1, l') := dictAt_some.2 (by simp)
        have e4 : dictAt h3 p = some km := dictAt_some.2 el
        rw [treeOf, treeOf, e2, e4]
        simp only [Option.bind_eq_bind, Option.bind_some]
        rw [mapM_forall2 (f := fun e => (treeOf h3 m e.2).map (fun t => (e.1, t))) (l := km.2)]
        refine (List.forall₂_iff_get.2 ⟨c2.length_eq, fun i h1' h2' => ?_⟩)
        have c := (List.forall₂_iff_get.1 c2).2 i h1' h2'
        rw [tree_ext (alloc_ext h4 _) hh2 c.2.1, c.2.2.2 m, c.1]
    | table p rows =>
      simp only [copyV, hm_bind, hm_getDict, hm_alloc, hm_pure] at e
      rcases e with ⟨er, ⟨_, rfl⟩, rfl⟩ | ⟨km, h3, ⟨el, rfl⟩, e⟩
      · exact ⟨Ext.refl _, hh, fun w hw => by cases hw⟩
      have el := asDict_ok.1 el.symm
      have hlv : ∀ u, u ∈ km.2 → u.2.Valid h3 := fun u hu => hh p _ el _ (List.mem_map.2 ⟨u, hu, rfl⟩)
      rcases e with ⟨er, ec, rfl⟩ | ⟨l', h4, ec, e⟩
      · obtain ⟨x2, hh2, _⟩ := copyMap_spec (copyV_copies n) km.2 _ _ _ ec hh hlv
        exact ⟨x2, hh2, fun w hw => by cases hw⟩
      obtain ⟨x2, hh2, c2⟩ := copyMap_spec (copyV_copies n) km.2 _ _ _ ec hh hlv
      have c2 := c2 l' rfl
      rcases e with ⟨er, ⟨hx, _⟩, _⟩ | ⟨p', h5, ⟨ep, rfl⟩, rfl, rfl⟩
      · cases hx
      cases ep
      obtain ⟨x3, hh3, vv, vu⟩ := copies_alloc x2 hh2 (o := .dict km.1 l') (v := .table h4.length rows)
        (fun w hw => by
          obtain ⟨e', he', rfl⟩ := List.mem_map.1 hw
          obtain ⟨u, hu, c⟩ := forall2_right_mem c2 he'
          exact ⟨c.2.1, c.2.2.1⟩)
        (fun q hq => by
          simp only [HV.addrs, List.mem_cons, List.not_mem_nil, or_false] at hq
          subst hq
          exact ⟨x2.length, Nat.le_refl _, fun hlt => absurd hlt (Nat.lt_irrefl _)⟩)
      refine ⟨x3, hh3, fun w hw => ?_⟩
      cases hw
      refine ⟨vv, vu, fun m => ?_⟩
      cases m with
      | zero => rfl
      | succ m =>
        have e2 : dictAt (h4 ++ [Obj.dict km.1 l']) h4.length = some (km.1, l') := dictAt_some.2 (by simp)
        have e4 : dictAt h3 p = some km := dictAt_some.2 el
        rw [treeOf, treeOf, e2, e4]
        simp only [Option.bind_eq_bind, Option.bind_some]
        rw [mapM_forall2 (f := fun e => (treeOf h3 m e.2).map (fun t => (e.1, t))) (l := km.2)]
        refine (List.forall₂_iff_get.2 ⟨c2.length_eq, fun i h1' h2' => ?_⟩)
        have c := (List.forall₂_iff_get.1 c2).2 i h1' h2'
        rw [tree_ext (alloc_ext h4 _) hh2 c.2.1, c.2.2.2 m, c.1]

end Iv

import Verif.Lemmas.Alias
/-
Indexed assignment writes only to storage of the variable and to new storage.
-/
namespace Iv

variable {A T : Type}

/-- Relative to the heap `h0` and a region `S` of it: the heap is valid and unchanged outside of the region. -/
def AInv (h0 : Heap A T) (S : Nat → Prop) (h : Heap A T) : Prop :=
  HeapValid h ∧ h0.length ≤ h.length ∧ ∀ p, p < h0.length → ¬ S p → h[p]? = h0[p]?

/-- The value uses only the region and storage that is new since `h0`. -/
def AOwn (h0 : Heap A T) (S : Nat → Prop) (h : Heap A T) (v : HV A T) : Prop :=
  v.Valid h ∧ ∀ p, Uses h v p → S p ∨ h0.length ≤ p

/-- A step from `h` to `h'` that keeps the invariant and what is known about values. -/
def AGood (h0 : Heap A T) (S : Nat → Prop) (h h' : Heap A T) : Prop :=
  AInv h0 S h' ∧ h.length ≤ h'.length ∧ ∀ v, AOwn h0 S h v → AOwn h0 S h' v

/-- The code keeps the invariant when started in `h`, and its result satisfies `Q`. -/
def Safe (h0 : Heap A T) (S : Nat → Prop) {α : Type} (m : HM A T α) (h : Heap A T) (Q : α → Heap A T → Prop) : Prop :=
  ∀ r h', m h = some (r, h') → AGood h0 S h h' ∧ ∀ a, r = .ok a → Q a h'

section
variable {h0 : Heap A T} {S : Nat → Prop}

theorem AGood.refl {h : Heap A T} (hi : AInv h0 S h) : AGood h0 S h h := ⟨hi, Nat.le_refl _, fun _ hv => hv⟩

theorem AGood.trans {h h1 h2 : Heap A T} (a : AGood h0 S h h1) (b : AGood h0 S h1 h2) : AGood h0 S h h2 :=
  ⟨b.1, Nat.le_trans a.2.1 b.2.1, fun v hv => b.2.2 v (a.2.2 v hv)⟩

theorem AGood.of_ext {h h' : Heap A T} (hi : AInv h0 S h) (e : Ext h h') (hh : HeapValid h') : AGood h0 S h h' := by
  refine ⟨⟨hh, Nat.le_trans hi.2.1 e.length, fun p hp hs => ?_⟩, e.length, fun v hv => ⟨hv.1.mono e.length, fun p hp => ?_⟩⟩
  · rw [e.get (Nat.lt_of_lt_of_le hp hi.2.1)]
    exact hi.2.2 p hp hs
  · exact hv.2 p ((uses_ext e hi.1 hv.1 p).1 hp)

theorem Safe.bind {α β : Type} {m : HM A T α} {k : α → HM A T β} {h : Heap A T} {Q : α → Heap A T → Prop}
    {Q' : β → Heap A T → Prop} (hm : Safe h0 S m h Q)
    (hk : ∀ a h1, AGood h0 S h h1 → Q a h1 → Safe h0 S (k a) h1 Q') : Safe h0 S (m >>= k) h Q' := by
  intro r h' e
  rw [hm_bind] at e
  rcases e with ⟨er, e, rfl⟩ | ⟨a, h1, e1, e⟩
  · exact ⟨(hm _ _ e).1, fun _ hr => by cases hr⟩
  · obtain ⟨g, q⟩ := hm _ _ e1
    obtain ⟨g', q'⟩ := hk a h1 g (q a rfl) r h' e
    exact ⟨g.trans g', q'⟩

theorem Safe.pure {α : Type} {a : α} {h : Heap A T} {Q : α → Heap A T → Prop} (hi : AInv h0 S h) (hq : Q a h) :
    Safe h0 S (Pure.pure a : HM A T α) h Q := by
  intro r h' e
  rw [hm_pure] at e
  obtain ⟨rfl, rfl⟩ := e
  exact ⟨AGood.refl hi, fun b hb => by cases hb; exact hq⟩

theorem Safe.fail {α : Type} {x : Fail} {h : Heap A T} {Q : α → Heap A T → Prop} (hi : AInv h0 S h) :
    Safe h0 S (failH x : HM A T α) h Q := by
  intro r h' e
  rw [hm_fail] at e
  obtain ⟨rfl, rfl⟩ := e
  exact ⟨AGood.refl hi, fun b hb => by cases hb⟩

theorem Safe.pureH {α : Type} {x : Res α} {h : Heap A T} {Q : α → Heap A T → Prop} (hi : AInv h0 S h)
    (hq : ∀ a, x = .ok a → Q a h) : Safe h0 S (Iv.pureH x : HM A T α) h Q := by
  intro r h' e
  rw [hm_pureH] at e
  obtain ⟨rfl, rfl⟩ := e
  exact ⟨AGood.refl hi, hq⟩

theorem Safe.mono {α : Type} {m : HM A T α} {h : Heap A T} {Q Q' : α → Heap A T → Prop} (hm : Safe h0 S m h Q)
    (hq : ∀ a h', Q a h' → Q' a h') : Safe h0 S m h Q' :=
  fun r h' e => ⟨(hm r h' e).1, fun a ha => hq a h' ((hm r h' e).2 a ha)⟩

theorem safe_getSlots {h : Heap A T} (hi : AInv h0 S h) (p : Nat) :
    Safe h0 S (getSlots p) h (fun l h' => h' = h ∧ h[p]? = some (.slots l)) := by
  intro r h' e
  rw [hm_getSlots] at e
  obtain ⟨rfl, rfl⟩ := e
  exact ⟨AGood.refl hi, fun l hl => ⟨rfl, asSlots_ok.1 hl⟩⟩

theorem safe_getDims {h : Heap A T} (hi : AInv h0 S h) (p : Nat) :
    Safe h0 S (getDims p) h (fun l h' => h' = h ∧ h[p]? = some (.dims l)) := by
  intro r h' e
  rw [hm_getDims] at e
  obtain ⟨rfl, rfl⟩ := e
  exact ⟨AGood.refl hi, fun l hl => ⟨rfl, asDims_ok.1 hl⟩⟩

theorem safe_getDict {h : Heap A T} (hi : AInv h0 S h) (p : Nat) :
    Safe h0 S (getDict p) h (fun km h' => h' = h ∧ h[p]? = some (.dict km.1 km.2)) := by
  intro r h' e
  rw [hm_getDict] at e
  obtain ⟨rfl, rfl⟩ := e
  exact ⟨AGood.refl hi, fun l hl => ⟨rfl, asDict_ok.1 hl⟩⟩

/-- the parts of an owned object are owned -/
theorem own_part {h : Heap A T} (hi : AInv h0 S h) {v w : HV A T} (hv : AOwn h0 S h v) {q : Nat} (hq : q ∈ v.addrs) {o : Obj A T}
    (ho : h[q]? = some o) (hw : w ∈ o.refs) : AOwn h0 S h w :=
  ⟨hi.1 q o ho w hw, fun p hp => hv.2 p (.there hq ho hw hp)⟩

theorem safe_alloc {h : Heap A T} (hi : AInv h0 S h) {o : Obj A T} (ho : ∀ w, w ∈ o.refs → AOwn h0 S h w) :
    Safe h0 S (alloc o) h (fun p h' => p = h.length ∧ h' = h ++ [o] ∧ h'[p]? = some o) := by
  intro r h' e
  rw [hm_alloc] at e
  obtain ⟨rfl, rfl⟩ := e
  refine ⟨AGood.of_ext hi (alloc_ext _ _) (alloc_valid hi.1 (fun w hw => (ho w hw).1)), fun p hp => ?_⟩
  cases hp
  exact ⟨rfl, rfl, by simp⟩

theorem set_valid {h : Heap A T} (hh : HeapValid h) {q : Nat} {o : Obj A T} (ho : ∀ w, w ∈ o.refs → w.Valid h) : HeapValid (h.set q o) := by
  intro p o' hp w hw
  refine HV.Valid.mono (h := h) ?_ (by simp)
  rw [List.getElem?_set] at hp
  split at hp
  · split at hp
    · cases hp; exact ho w hw
    · cases hp
  · exact hh p o' hp w hw

/-- Overwriting an owned object with owned parts. -/
theorem safe_put {h : Heap A T} (hi : AInv h0 S h) {q : Nat} (hq : S q ∨ h0.length ≤ q) {o : Obj A T}
    (ho : ∀ w, w ∈ o.refs → AOwn h0 S h w) : Safe h0 S (putObj q o) h (fun _ h' => h' = h.set q o) := by
  intro r h' e
  rw [hm_put] at e
  obtain ⟨rfl, rfl⟩ := e
  refine ⟨⟨⟨set_valid hi.1 (fun w hw => (ho w hw).1), by simpa using hi.2.1, fun p hp hs => ?_⟩, by simp, fun v hv => ⟨?_, fun p hp => ?_⟩⟩,
    fun _ _ => rfl⟩
  · rw [List.getElem?_set_ne (by rintro rfl; rcases hq with h | h; exact hs h; omega)]
    exact hi.2.2 p hp hs
  · exact hv.1.mono (by simp)
  · rcases uses_set (W := fun w => w ∈ o.refs) (fun w hw => Or.inr hw) hp with hu | ⟨w, hw, hu⟩
    · exact hv.2 p hu
    · exact (ho w hw).2 p hu

theorem safe_copy {h : Heap A T} (hi : AInv h0 S h) (n : Nat) {v : HV A T} (hv : v.Valid h) :
    Safe h0 S (copyV n v) h (fun w h' => AOwn h0 S h' w) := by
  intro r h' e
  obtain ⟨x, hh, c⟩ := copyV_copies n h v r h' e hi.1 hv
  refine ⟨AGood.of_ext hi x hh, fun w hw => ⟨(c w hw).1, fun p hp => Or.inr ?_⟩⟩
  exact Nat.le_trans hi.2.1 ((c w hw).2.1 p hp)

theorem safe_fn {f : ModFn A T} (hf : PureFn h0.length f) (hw : OwnResult f) {h : Heap A T} (hi : AInv h0 S h) {l : Option (HV A T)} {r : HV A T}
    (hl : ∀ x, l = some x → AOwn h0 S h x) (hr : AOwn h0 S h r) : Safe h0 S (f l r) h (fun w h' => AOwn h0 S h' w) := by
  intro res h' e
  obtain ⟨x, hh, c⟩ := hf l r h res h' e hi.2.1 hi.1 (fun x hx => (hl x hx).1) hr.1
  refine ⟨AGood.of_ext hi x hh, fun w hw' => ⟨c w hw', fun p hp => ?_⟩⟩
  subst hw'
  rcases hw l r h w h' e p hp with h1 | ⟨y, hy, hu⟩ | hu
  · exact Or.inr (Nat.le_trans hi.2.1 h1)
  · exact (hl y hy).2 p hu
  · exact hr.2 p hu

/-- only the result may be foreign -/
theorem safe_fn' {f : ModFn A T} (hf : PureFn h0.length f) {h : Heap A T} (hi : AInv h0 S h) {l : Option (HV A T)} {r : HV A T}
    (hl : ∀ x, l = some x → x.Valid h) (hr : r.Valid h) : Safe h0 S (f l r) h (fun w h' => w.Valid h') := by
  intro res h' e
  obtain ⟨x, hh, c⟩ := hf l r h res h' e hi.2.1 hi.1 hl hr
  exact ⟨AGood.of_ext hi x hh, fun w hw' => c w hw'⟩

/-- the value of an array reference -/
def ArrRef.val (ar : ArrRef T) : HV A T := .arr ar.ty ar.dims ar.data

theorem slots_mem_set {l : List (HV A T)} {i : Nat} {v w : HV A T} (hw : w ∈ l.set i v) : w ∈ l ∨ w = v := List.mem_or_eq_of_mem_set hw

theorem storable_own {et : ElemTypes A T} {ty : Option T} {h : Heap A T} {v w : HV A T} (hv : AOwn h0 S h v) (e : storable et ty v = some w) :
    AOwn h0 S h w := by
  unfold storable at e
  split at e
  · cases e; exact hv
  · rename_i t a
    cases ec : et.conv t a with
    | none => rw [ec] at e; cases e
    | some b =>
      rw [ec] at e
      cases e
      refine ⟨(fun p hp => (by cases hp)), fun p hp => ?_⟩
      cases hp with
      | here h => cases h
      | there h => cases h
  · cases e

theorem safe_setElem (et : ElemTypes A T) {h : Heap A T} (hi : AInv h0 S h) {ar : ArrRef T} (ha : AOwn h0 S h ar.val) (i : Int)
    {v : HV A T} (hv : AOwn h0 S h v) : Safe h0 S (setElemH et ar i v) h (fun _ _ => True) := by
  refine (safe_getSlots hi ar.data).bind (fun l h1 _ ⟨e, hl⟩ => ?_)
  subst e
  cases hs : setSlots et ar.ty l i v with
  | error e =>
    cases e with
    | err => exact Safe.pure hi trivial
    | panic => exact Safe.fail hi
  | ok l' =>
    have hp : ar.data ∈ (ar.val : HV A T).addrs := by simp [ArrRef.val, HV.addrs]
    refine (safe_put hi (ha.2 _ (.here hp)) (o := .slots l') (fun w hw => ?_)).bind (fun _ h2 g _ => Safe.pure g.1 trivial)
    unfold setSlots at hs
    split at hs
    · cases hs
    split at hs
    · cases hs
    split at hs
    · cases hs
    split at hs
    · cases hs
    rename_i u hu
    split at hs
    · cases hs
      rcases slots_mem_set hw with hw | rfl
      · exact own_part hi ha hp hl hw
      · exact storable_own hv hu
    · cases hs

theorem own_arr {h : Heap A T} (hi : AInv h0 S h) {ty : Option T} {d p : Nat} {s : List Nat} {l : List (HV A T)}
    (hd : d < h.length) (hp : p < h.length) (hsd : S d ∨ h0.length ≤ d) (hsp : S p ∨ h0.length ≤ p)
    (ed : h[d]? = some (.dims s)) (ep : h[p]? = some (.slots l)) (hl : ∀ w, w ∈ l → AOwn h0 S h w) : AOwn h0 S h (.arr ty d p) := by
  refine ⟨fun q hq => ?_, fun q hq => ?_⟩
  · simp only [HV.addrs, List.mem_cons, List.not_mem_nil, or_false] at hq
    rcases hq with rfl | rfl
    · exact hd
    · exact hp
  · cases hq with
    | here hq =>
      simp only [HV.addrs, List.mem_cons, List.not_mem_nil, or_false] at hq
      rcases hq with rfl | rfl
      · exact hsd
      · exact hsp
    | there hq ho hw hu =>
      simp only [HV.addrs, List.mem_cons, List.not_mem_nil, or_false] at hq
      rcases hq with rfl | rfl
      · rw [ed] at ho; cases ho; cases hw
      · rw [ep] at ho; cases ho
        exact (hl _ hw).2 q hu

theorem safe_upgrade {h : Heap A T} (hi : AInv h0 S h) {ar : ArrRef T} (ha : AOwn h0 S h ar.val) :
    Safe h0 S (upgrade ar) h (fun ar' h' => AOwn h0 S h' ar'.val) := by
  refine (safe_getDims hi ar.dims).bind (fun s h1 _ ⟨e, _⟩ => ?_)
  subst e
  refine (safe_getSlots hi ar.data).bind (fun l h1 _ ⟨e, hl⟩ => ?_)
  subst e
  unfold upgraded
  split
  · exact Safe.pure hi ha
  · refine (safe_alloc hi (o := .dims s) (fun w hw => by cases hw)).bind (fun d h2 g2 ⟨ed, e2, ed'⟩ => ?_)
    have hlo : ∀ w, w ∈ l.take (prod s) → AOwn h0 S h2 w := fun w hw =>
      g2.2.2 w (own_part hi ha (by simp [ArrRef.val, HV.addrs]) hl (List.mem_of_mem_take hw))
    refine (safe_alloc g2.1 (o := .slots (l.take (prod s))) hlo).bind (fun p h3 g3 ⟨ep, e3, ep'⟩ => ?_)
    refine Safe.pure g3.1 ?_
    refine own_arr g3.1 (s := s) (l := l.take (prod s)) ?_ ?_ (Or.inr ?_) (Or.inr ?_) ?_ ep' (fun w hw => g3.2.2 w (hlo w hw))
    · subst ed e2 ep e3; simp
    · subst ed e2 ep e3; simp
    · subst ed; exact hi.2.1
    · subst ep; exact g2.1.2.1
    · rw [e3, (alloc_ext h2 _).get (by subst ed e2; simp)]
      exact ed'

theorem safe_storeElem (et : ElemTypes A T) {h : Heap A T} (hi : AInv h0 S h) {ar : ArrRef T} (ha : AOwn h0 S h ar.val) (i : Int)
    {v : HV A T} (hv : AOwn h0 S h v) : Safe h0 S (storeElem et ar i v) h (fun ar' h' => AOwn h0 S h' ar'.val) := by
  refine (safe_setElem et hi ha i hv).bind (fun b h1 g1 _ => ?_)
  cases b with
  | true => exact Safe.pure g1.1 (g1.2.2 _ ha)
  | false =>
    refine (safe_upgrade g1.1 (g1.2.2 _ ha)).bind (fun ar' h2 g2 ha' => ?_)
    refine (safe_setElem et g2.1 ha' i (g2.2.2 _ (g1.2.2 _ hv))).bind (fun b h3 g3 _ => ?_)
    cases b with
    | true => exact Safe.pure g3.1 (g3.2.2 _ ha')
    | false => exact Safe.fail g3.1

theorem slotAt_mem {l : List (HV A T)} {i : Int} {x : HV A T} (e : slotAt l i = .ok x) : x ∈ l := by
  unfold slotAt at e
  split at e
  · cases e
  · split at e
    · rename_i v hv
      cases e
      exact List.mem_of_getElem? hv
    · cases e

/-- the condition on the modifying function, if there is one -/
def ModOk (m : Nat) (f : Option (ModFn A T)) : Prop := ∀ g, f = some g → PureFn m g ∧ OwnResult g

theorem safe_modAssign (et : ElemTypes A T) {f : Option (ModFn A T)} (hf : ModOk h0.length f) {h : Heap A T} (hi : AInv h0 S h) {ar : ArrRef T}
    (ha : AOwn h0 S h ar.val) (i : Int) {v : HV A T} (hv : AOwn h0 S h v) :
    Safe h0 S (modAssignH et f ar i v) h (fun ar' h' => AOwn h0 S h' ar'.val) := by
  unfold modAssignH
  split
  · exact Safe.pure hi ha
  · cases f with
    | none => exact safe_storeElem et hi ha i hv
    | some f =>
      refine (safe_getSlots hi ar.data).bind (fun l h1 _ ⟨e, hl⟩ => ?_)
      subst e
      refine (Safe.pureH hi (Q := fun x h' => h' = h1 ∧ x ∈ l) (fun x hx => ⟨rfl, slotAt_mem hx⟩)).bind (fun x h1' _ ⟨e, hx⟩ => ?_)
      subst e
      refine (safe_fn (hf f rfl).1 (hf f rfl).2 hi (l := some x) (fun y hy => by
        cases hy
        exact own_part hi ha (by simp [ArrRef.val, HV.addrs]) hl hx) hv).bind (fun w h2 g2 hw => ?_)
      exact safe_storeElem et g2.1 (g2.2.2 _ ha) i hw

theorem safe_assignOne (et : ElemTypes A T) {f : Option (ModFn A T)} (hf : ModOk h0.length f) {v : HV A T} : ∀ (is : List Int) {h : Heap A T}
    (_ : AInv h0 S h) {ar : ArrRef T} (_ : AOwn h0 S h ar.val) (_ : AOwn h0 S h v),
    Safe h0 S (assignOne et f v is ar) h (fun ar' h' => AOwn h0 S h' ar'.val)
  | [], _, hi, _, ha, _ => Safe.pure hi ha
  | i :: is, _, hi, _, ha, hv =>
    (safe_modAssign et hf hi ha i hv).bind (fun _ _ g1 ha' => safe_assignOne et hf is g1.1 ha' (g1.2.2 _ hv))

theorem safe_assignEach (et : ElemTypes A T) (n : Nat) {f : Option (ModFn A T)} (hf : ModOk h0.length f) (src : Nat) : ∀ (is : List Int) (k : Nat)
    {h : Heap A T} (_ : AInv h0 S h) {ar : ArrRef T} (_ : AOwn h0 S h ar.val),
    Safe h0 S (assignEach et n f src is k ar) h (fun ar' h' => AOwn h0 S h' ar'.val)
  | [], _, _, hi, _, ha => Safe.pure hi ha
  | i :: is, k, h, hi, ar, ha => by
    refine (safe_getSlots hi src).bind (fun l h1 _ ⟨e, hl⟩ => ?_)
    subst e
    refine (Safe.pureH hi (Q := fun x h' => h' = h1 ∧ x ∈ l) (fun x hx => ⟨rfl, slotAt_mem hx⟩)).bind (fun x h1' _ ⟨e, hx⟩ => ?_)
    subst e
    refine (safe_copy hi n (hi.1 _ _ hl x hx)).bind (fun v h2 g2 hv => ?_)
    exact (safe_modAssign et hf g2.1 (g2.2.2 _ ha) i hv).bind (fun _ _ g3 ha' => safe_assignEach et n hf src is (k + 1) g3.1 ha')

theorem safe_assignFrom (et : ElemTypes A T) (n : Nat) {f : Option (ModFn A T)} (hf : ModOk h0.length f) {h : Heap A T} (hi : AInv h0 S h)
    {ar : ArrRef T} (ha : AOwn h0 S h ar.val) (idims : List Nat) (is : List Int) (shape : List Nat) {src : Nat} {l : List (HV A T)}
    (hl : h[src]? = some (.slots l)) :
    Safe h0 S (assignFrom et n f ar idims is shape src l) h (fun ar' h' => AOwn h0 S h' ar'.val) := by
  unfold assignFrom
  split
  · rename_i x
    exact (safe_copy hi n (hi.1 _ _ hl x (by simp [Obj.refs]))).bind (fun v h2 g2 hv => safe_assignOne et hf is g2.1 (g2.2.2 _ ha) hv)
  · split
    · exact safe_assignEach et n hf src is 0 hi ha
    · exact Safe.fail hi

theorem safe_assignArr (et : ElemTypes A T) (n : Nat) {f : Option (ModFn A T)} (hf : ModOk h0.length f) {h : Heap A T} (hi : AInv h0 S h)
    {ar : ArrRef T} (ha : AOwn h0 S h ar.val) (idims : List Nat) (is : List Int) {r : HV A T} (hr : r.Valid h) :
    Safe h0 S (assignArr et n f ar idims is r) h (fun ar' h' => AOwn h0 S h' ar'.val) := by
  unfold assignArr
  split
  · refine (safe_getDims hi _).bind (fun s h1 _ ⟨e, _⟩ => ?_)
    subst e
    refine (safe_getSlots hi _).bind (fun l h1 _ ⟨e, hl⟩ => ?_)
    subst e
    exact safe_assignFrom et n hf hi ha idims is s hl
  · refine (safe_getSlots hi _).bind (fun l h1 _ ⟨e, hl⟩ => ?_)
    subst e
    exact safe_assignFrom et n hf hi ha idims is _ hl
  · split
    · split
      · exact Safe.pure hi ha
      · exact Safe.fail hi
    · exact Safe.fail hi
  · exact (safe_copy hi n hr).bind (fun v h2 g2 hv => safe_assignOne et hf is g2.1 (g2.2.2 _ ha) hv)

theorem own_list {h : Heap A T} {p : Nat} (hp : p < h.length) (hs : S p ∨ h0.length ≤ p)
    (hl : ∀ l, h[p]? = some (.slots l) → ∀ w, w ∈ l → AOwn h0 S h w) (hs' : ∃ l, h[p]? = some (.slots l)) : AOwn h0 S h (.list p) := by
  refine ⟨fun q hq => ?_, fun q hq => ?_⟩
  · simp only [HV.addrs, List.mem_cons, List.not_mem_nil, or_false] at hq
    subst hq; exact hp
  · cases hq with
    | here hq =>
      simp only [HV.addrs, List.mem_cons, List.not_mem_nil, or_false] at hq
      subst hq; exact hs
    | there hq ho hw hu =>
      simp only [HV.addrs, List.mem_cons, List.not_mem_nil, or_false] at hq
      subst hq
      obtain ⟨l, hl'⟩ := hs'
      rw [hl'] at ho
      cases ho
      exact (hl l hl' _ hw).2 q hu

theorem safe_deepSlot : ∀ (is : List Int) (p : Nat) {h : Heap A T} (_ : AInv h0 S h) (_ : AOwn h0 S h (.list p)),
    Safe h0 S (deepSlot p is) h (fun s h' => h' = h ∧ AOwn h0 S h (.list s.1))
  | [], _, _, hi, _ => Safe.fail hi
  | [i], p, h, hi, hp => by
    refine (safe_getSlots hi _).bind (fun l h1 _ ⟨e, hl⟩ => ?_)
    subst e
    refine (Safe.pureH hi (Q := fun _ h' => h' = h1) (fun _ _ => rfl)).bind (fun x h1' _ e => ?_)
    subst e
    exact Safe.pure hi ⟨rfl, hp⟩
  | i :: j :: is, p, h, hi, hp => by
    refine (safe_getSlots hi _).bind (fun l h1 _ ⟨e, hl⟩ => ?_)
    subst e
    refine (Safe.pureH hi (Q := fun x h' => h' = h1 ∧ x ∈ l) (fun x hx => ⟨rfl, slotAt_mem hx⟩)).bind (fun x h1' _ ⟨e, hx⟩ => ?_)
    subst e
    refine (Safe.pureH hi (Q := fun q h' => h' = h1' ∧ x = .list q) (fun q hq => ⟨rfl, ?_⟩)).bind (fun q h2 _ ⟨e, hq⟩ => ?_)
    · unfold asList at hq; split at hq
      · cases hq; rfl
      · cases hq
    subst e
    subst hq
    exact safe_deepSlot (j :: is) q hi (own_part hi hp (by simp [HV.addrs]) hl hx)

theorem safe_getDeep {is : List Int} {p : Nat} {h : Heap A T} (hi : AInv h0 S h) (hp : AOwn h0 S h (.list p)) :
    Safe h0 S (getDeepH p is) h (fun v h' => h' = h ∧ AOwn h0 S h v) := by
  refine (safe_deepSlot is p hi hp).bind (fun s h1 _ ⟨e, hs⟩ => ?_)
  subst e
  refine (safe_getSlots hi _).bind (fun l h2 _ ⟨e, hl⟩ => ?_)
  subst e
  exact Safe.pureH hi (fun x hx => ⟨rfl, own_part hi hs (by simp [HV.addrs]) hl (slotAt_mem hx)⟩)

theorem safe_setDeep {n : Nat} {is : List Int} {p : Nat} {h : Heap A T} (hi : AInv h0 S h) (hp : AOwn h0 S h (.list p)) {v : HV A T}
    (hv : v.Valid h) : Safe h0 S (setDeepH n p is v) h (fun _ _ => True) := by
  refine (safe_copy hi n hv).bind (fun w h1 g1 hw => ?_)
  refine (safe_deepSlot is p g1.1 (g1.2.2 _ hp)).bind (fun s h2 _ ⟨e, hs⟩ => ?_)
  subst e
  refine (safe_getSlots g1.1 _).bind (fun l h3 _ ⟨e, hl⟩ => ?_)
  subst e
  refine (safe_put g1.1 (hs.2 _ (.here (by simp [HV.addrs]))) (fun u hu => ?_)).mono (fun _ _ _ => trivial)
  rcases slots_mem_set hu with hu | rfl
  · exact own_part g1.1 hs (by simp [HV.addrs]) hl hu
  · exact hw

theorem safe_assignListAt {n : Nat} {f : Option (ModFn A T)} (hf : ∀ g, f = some g → PureFn h0.length g) {is : List Int} {p : Nat} {h : Heap A T}
    (hi : AInv h0 S h) (hp : AOwn h0 S h (.list p)) {r : HV A T} (hr : r.Valid h) :
    Safe h0 S (assignListAt n f p is r) h (fun _ _ => True) := by
  cases f with
  | none => exact safe_setDeep hi hp hr
  | some f =>
    refine (safe_getDeep hi hp).bind (fun v h1 _ ⟨e, hv⟩ => ?_)
    subst e
    refine (safe_fn' (hf f rfl) hi (l := some v) (fun y hy => by cases hy; exact hv.1) hr).bind (fun w h2 g2 hw => ?_)
    exact safe_setDeep g2.1 (g2.2.2 _ hp) hw

section
variable [DecidableEq A]

theorem hset_mem {m : List (A × HV A T)} {k : A} {v : HV A T} {e : A × HV A T} (he : e ∈ hset m k v) : e ∈ m ∨ e.2 = v := by
  induction m with
  | nil => simp only [hset, List.mem_cons, List.not_mem_nil, or_false] at he; subst he; exact Or.inr rfl
  | cons a m ih =>
    rw [hset] at he
    split at he
    · rcases List.mem_cons.1 he with rfl | he
      · exact Or.inr rfl
      · exact Or.inl (List.mem_cons_of_mem _ he)
    · rcases List.mem_cons.1 he with rfl | he
      · exact Or.inl (List.mem_cons_self ..)
      · rcases ih he with he | he
        · exact Or.inl (List.mem_cons_of_mem _ he)
        · exact Or.inr he

theorem hget_mem {m : List (A × HV A T)} {k : A} {v : HV A T} (he : hget m k = some v) : v ∈ m.map (·.2) := by
  unfold hget at he
  cases hf : m.find? (fun e => e.1 = k) with
  | none => rw [hf] at he; cases he
  | some e =>
    rw [hf] at he
    cases he
    exact List.mem_map.2 ⟨e, List.mem_of_find?_eq_some hf, rfl⟩

theorem safe_dictSet {n p : Nat} {k : A} {h : Heap A T} (hi : AInv h0 S h) (hp : AOwn h0 S h (.dict p)) {v : HV A T} (hv : v.Valid h) :
    Safe h0 S (dictSet n p k v) h (fun _ _ => True) := by
  refine (safe_copy hi n hv).bind (fun w h1 g1 hw => ?_)
  refine (safe_getDict g1.1 p).bind (fun km h2 _ ⟨e, hl⟩ => ?_)
  subst e
  refine (safe_put g1.1 ((g1.2.2 _ hp).2 _ (.here (by simp [HV.addrs]))) (fun u hu => ?_)).mono (fun _ _ _ => trivial)
  obtain ⟨e, he, rfl⟩ := List.mem_map.1 hu
  rcases hset_mem he with he | he
  · exact own_part g1.1 (g1.2.2 _ hp) (by simp [HV.addrs]) hl (List.mem_map.2 ⟨e, he, rfl⟩)
  · rw [he]; exact hw

theorem safe_keyValue {src : Option Nat} {r : HV A T} {i : Nat} {h : Heap A T} (hi : AInv h0 S h) (hr : r.Valid h) :
    Safe h0 S (keyValue src r i) h (fun v h' => h' = h ∧ v.Valid h) := by
  cases src with
  | none => exact Safe.pure hi ⟨rfl, hr⟩
  | some p =>
    refine (safe_getSlots hi _).bind (fun l h2 _ ⟨e, hl⟩ => ?_)
    subst e
    exact Safe.pureH hi (fun x hx => ⟨rfl, hi.1 _ _ hl x (slotAt_mem hx)⟩)

theorem safe_keyModified {f : Option (ModFn A T)} (hf : ∀ g, f = some g → PureFn h0.length g) {p : Nat} {k : A} {v : HV A T} {h : Heap A T}
    (hi : AInv h0 S h) (hv : v.Valid h) : Safe h0 S (keyModified f p k v) h (fun v h' => v.Valid h') := by
  cases f with
  | none => exact Safe.pure hi hv
  | some f =>
    refine (safe_getDict hi p).bind (fun km h2 _ ⟨e, hl⟩ => ?_)
    subst e
    exact safe_fn' (hf f rfl) hi (fun x hx => hi.1 _ _ hl x (hget_mem hx)) hv

theorem safe_assignKeys {n : Nat} {origin : Int} {f : Option (ModFn A T)} (hf : ∀ g, f = some g → PureFn h0.length g) {p : Nat} {ks : List A}
    {src : Option Nat} {r : HV A T} : ∀ (js : List Int) (i : Nat) {h : Heap A T} (_ : AInv h0 S h) (_ : AOwn h0 S h (.dict p))
    (_ : r.Valid h), Safe h0 S (assignKeys n origin f p ks src r js i) h (fun _ _ => True)
  | [], _, _, hi, _, _ => Safe.pure hi trivial
  | j :: js, i, h, hi, hp, hr => by
    refine (Safe.pureH hi (Q := fun _ h' => h' = h) (fun _ _ => rfl)).bind (fun k h1 _ e => ?_)
    subst e
    refine (safe_keyValue hi hr).bind (fun v h2 _ ⟨e, hv⟩ => ?_)
    subst e
    refine (safe_keyModified hf hi hv).bind (fun w h3 g3 hw => ?_)
    refine (safe_dictSet g3.1 (g3.2.2 _ hp) hw).bind (fun _ h4 g4 _ => ?_)
    have g := g3.trans g4
    exact safe_assignKeys hf js (i + 1) g4.1 (g.2.2 _ hp) (hr.mono g.2.1)

theorem safe_vectorize {is : List Int} {r : HV A T} {h : Heap A T} (hi : AInv h0 S h) :
    Safe h0 S (vectorize is r) h (fun _ h' => h' = h) := by
  unfold vectorize
  split
  · refine (safe_getSlots hi _).bind (fun l h2 _ ⟨e, hl⟩ => ?_)
    subst e
    exact Safe.pureH hi (fun _ _ => rfl)
  · refine (safe_getSlots hi _).bind (fun l h2 _ ⟨e, hl⟩ => ?_)
    subst e
    exact Safe.pureH hi (fun _ _ => rfl)
  · split
    · exact Safe.pure hi rfl
    · exact Safe.fail hi
  · exact Safe.pure hi rfl

theorem safe_assignKeyed {n : Nat} {origin : Int} {f : Option (ModFn A T)} (hf : ∀ g, f = some g → PureFn h0.length g) {p : Nat} {is : List Int}
    {r : HV A T} {h : Heap A T} (hi : AInv h0 S h) (hp : AOwn h0 S h (.dict p)) (hr : r.Valid h) :
    Safe h0 S (assignKeyed n origin f p is r) h (fun _ _ => True) := by
  refine (safe_vectorize hi).bind (fun src h1 _ e => ?_)
  subst e
  refine (safe_getDict hi p).bind (fun km h2 _ ⟨e, hl⟩ => ?_)
  subst e
  exact safe_assignKeys hf is 0 hi hp hr

theorem ModOk.pure {m : Nat} {f : Option (ModFn A T)} (hf : ModOk m f) : ∀ g, f = some g → PureFn m g := fun g hg => (hf g hg).1

theorem safe_assignInner {et : ElemTypes A T} {n : Nat} {f : Option (ModFn A T)} (hf : ModOk h0.length f) {is : List Int}
    {r v : HV A T} {h : Heap A T} (hi : AInv h0 S h) (hv : AOwn h0 S h v) (hr : r.Valid h) :
    Safe h0 S (assignInner et n f is r v) h (fun w h' => w.Valid h') := by
  unfold assignInner
  split
  · exact (safe_assignListAt hf.pure hi hv hr).bind (fun _ h1 g1 _ => Safe.pure g1.1 (hv.1.mono g1.2.1))
  · rename_i ty d q
    exact (safe_assignArr et n hf hi (ar := ⟨ty, d, q⟩) hv _ is hr).bind (fun ar h1 g1 ha => Safe.pure g1.1 ha.1)
  · exact Safe.fail hi

theorem safe_assignObject {et : ElemTypes A T} {n : Nat} {origin : Int} {f : Option (ModFn A T)} (hf : ModOk h0.length f) {r : HV A T} :
    ∀ (is : List Int) (p : Nat) {h : Heap A T} (_ : AInv h0 S h) (_ : AOwn h0 S h (.dict p)) (_ : r.Valid h),
    Safe h0 S (assignObjectH et n origin f r p is) h (fun _ _ => True)
  | [], _, _, hi, hp, hr => safe_assignKeyed hf.pure hi hp hr
  | [_], _, _, hi, hp, hr => safe_assignKeyed hf.pure hi hp hr
  | i :: j :: is, p, h, hi, hp, hr => by
    rw [assignObjectH]
    split
    · refine (safe_getDict hi p).bind (fun km h2 _ ⟨e, hl⟩ => ?_)
      subst e
      refine (Safe.pureH hi (Q := fun _ h' => h' = h2) (fun _ _ => rfl)).bind (fun k h1 _ e => ?_)
      subst e
      refine (Safe.pureH hi (Q := fun v h' => h' = h1 ∧ hget km.2 k = some v) (fun v hv => ⟨rfl, ?_⟩)).bind (fun v h1' _ ⟨e, hv⟩ => ?_)
      · unfold needed at hv
        split at hv
        · rename_i e; cases hv; exact e
        · cases hv
      subst e
      have hvo : AOwn h0 S h1' v := own_part hi hp (by simp [HV.addrs]) hl (hget_mem hv)
      split
      · exact (safe_assignObject hf (j :: is) _ hi hvo hr).bind (fun _ h2 g2 _ =>
          safe_dictSet g2.1 (g2.2.2 _ hp) (hvo.1.mono g2.2.1))
      · exact (safe_assignInner hf hi hvo hr).bind (fun w h2 g2 hw => safe_dictSet g2.1 (g2.2.2 _ hp) hw)
    · exact safe_assignKeyed hf.pure hi hp hr

theorem safe_assignPart {et : ElemTypes A T} {n : Nat} {origin : Int} {f : Option (ModFn A T)} (hf : ModOk h0.length f) {dst r : HV A T}
    {idims : List Nat} {is : List Int} {h : Heap A T} (hi : AInv h0 S h) (hd : AOwn h0 S h dst) (hr : r.Valid h) :
    Safe h0 S (assignPart et n origin dst idims is f r) h (fun o h' => ∀ v, o = some v → AOwn h0 S h' v) := by
  unfold assignPart
  split
  · exact (safe_assignObject hf is _ hi hd hr).bind (fun _ h2 g2 _ => Safe.pure g2.1 (fun v hv => by cases hv))
  · exact (safe_assignListAt hf.pure hi hd hr).bind (fun _ h2 g2 _ => Safe.pure g2.1 (fun v hv => by cases hv))
  · rename_i ty d q
    exact (safe_assignArr et n hf hi (ar := ⟨ty, d, q⟩) hd idims is hr).bind (fun ar h1 g1 ha => Safe.pure g1.1 (fun v hv => by
      cases hv; exact ha))
  · exact Safe.fail hi

end
end
end Iv

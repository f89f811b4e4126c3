import Verif.Props.Alias
/-
C42 continued: modifying functions whose result is the storage of another variable, and where the independence ends.
-/
namespace Iv

variable {X A T : Type} [DecidableEq X] [DecidableEq A]

/-- The code keeps the heap outside of the region when started in `h`, and its result satisfies `Q`. -/
def KeepsH (h0 : Heap A T) (S : Nat → Prop) {α : Type} (m : HM A T α) (h : Heap A T) (Q : α → Heap A T → Prop) : Prop :=
  ∀ r h', m h = some (r, h') → AInv h0 S h' ∧ h.length ≤ h'.length ∧ ∀ a, r = .ok a → Q a h'

section
omit [DecidableEq A]
variable {h0 : Heap A T} {S : Nat → Prop}

theorem Safe.keeps {α : Type} {m : HM A T α} {h : Heap A T} {Q : α → Heap A T → Prop} (hm : Safe h0 S m h Q) : KeepsH h0 S m h Q :=
  fun r h' e => ⟨(hm r h' e).1.1, (hm r h' e).1.2.1, (hm r h' e).2⟩

theorem KeepsH.bind {α β : Type} {m : HM A T α} {k : α → HM A T β} {h : Heap A T} {Q : α → Heap A T → Prop}
    {Q' : β → Heap A T → Prop} (hm : KeepsH h0 S m h Q)
    (hk : ∀ a h1, AInv h0 S h1 → h.length ≤ h1.length → Q a h1 → KeepsH h0 S (k a) h1 Q') : KeepsH h0 S (m >>= k) h Q' := by
  intro r h' e
  rw [hm_bind] at e
  rcases e with ⟨er, e, rfl⟩ | ⟨a, h1, e1, e⟩
  · exact ⟨(hm _ _ e).1, (hm _ _ e).2.1, fun _ hr => by cases hr⟩
  · obtain ⟨g, l, q⟩ := hm _ _ e1
    obtain ⟨g', l', q'⟩ := hk a h1 g l (q a rfl) r h' e
    exact ⟨g', Nat.le_trans l l', q'⟩

/-- an array whose elements are in storage that may be written -/
def Writable (h0 : Heap A T) (S : Nat → Prop) (h : Heap A T) (ar : ArrRef T) : Prop :=
  (ar.val : HV A T).Valid h ∧ (S ar.data ∨ h0.length ≤ ar.data)

theorem Writable.mono {h h' : Heap A T} {ar : ArrRef T} (hw : Writable h0 S h ar) (hl : h.length ≤ h'.length) : Writable h0 S h' ar :=
  ⟨hw.1.mono hl, hw.2⟩

theorem keeps_put {h : Heap A T} (hi : AInv h0 S h) {q : Nat} (hq : S q ∨ h0.length ≤ q) {o : Obj A T}
    (ho : ∀ w, w ∈ o.refs → w.Valid h) : KeepsH h0 S (putObj q o) h (fun _ _ => True) := by
  intro r h' e
  rw [hm_put] at e
  obtain ⟨rfl, rfl⟩ := e
  refine ⟨⟨set_valid hi.1 ho, by simpa using hi.2.1, fun p hp hs => ?_⟩, by simp, fun _ _ => trivial⟩
  rw [List.getElem?_set_ne (by rintro rfl; rcases hq with h | h; exact hs h; omega)]
  exact hi.2.2 p hp hs

theorem storable_valid {et : ElemTypes A T} {ty : Option T} {h : Heap A T} {v w : HV A T} (hv : v.Valid h) (e : storable et ty v = some w) :
    w.Valid h := by
  unfold storable at e
  split at e
  · cases e; exact hv
  · rename_i t a
    cases ec : et.conv t a with
    | none => rw [ec] at e; cases e
    | some b =>
      rw [ec] at e
      cases e
      intro p hp
      cases hp
  · cases e

theorem keeps_setElem (et : ElemTypes A T) {h : Heap A T} (hi : AInv h0 S h) {ar : ArrRef T} (ha : Writable h0 S h ar) (i : Int)
    {v : HV A T} (hv : v.Valid h) : KeepsH h0 S (setElemH et ar i v) h (fun _ _ => True) := by
  refine (safe_getSlots hi ar.data).keeps.bind (fun l h1 _ _ ⟨e, hl⟩ => ?_)
  subst e
  cases hs : setSlots et ar.ty l i v with
  | error e =>
    cases e with
    | err => exact (Safe.pure hi trivial).keeps
    | panic => exact (Safe.fail hi).keeps
  | ok l' =>
    refine (keeps_put hi ha.2 (o := .slots l') (fun w hw => ?_)).bind (fun _ h2 g _ _ => (Safe.pure g trivial).keeps)
    unfold setSlots at hs
    split at hs
    · cases hs
    split at hs
    · cases hs
    split at hs
    · cases hs
    split at hs
    · cases hs
    rename_i u hu
    split at hs
    · cases hs
      rcases slots_mem_set hw with hw | rfl
      · exact hi.1 _ _ hl w hw
      · exact storable_valid hv hu
    · cases hs

theorem keeps_alloc {h : Heap A T} (hi : AInv h0 S h) {o : Obj A T} (ho : ∀ w, w ∈ o.refs → w.Valid h) :
    KeepsH h0 S (alloc o) h (fun p h' => p = h.length ∧ p < h'.length) := by
  intro r h' e
  rw [hm_alloc] at e
  obtain ⟨rfl, rfl⟩ := e
  have g := AGood.of_ext hi (alloc_ext h o) (alloc_valid hi.1 ho)
  refine ⟨g.1, g.2.1, fun p hp => ?_⟩
  cases hp
  exact ⟨rfl, by simp⟩

theorem keeps_upgrade {h : Heap A T} (hi : AInv h0 S h) {ar : ArrRef T} (ha : Writable h0 S h ar) :
    KeepsH h0 S (upgrade ar) h (fun ar' h' => Writable h0 S h' ar') := by
  refine (safe_getDims hi ar.dims).keeps.bind (fun s h1 _ _ ⟨e, _⟩ => ?_)
  subst e
  refine (safe_getSlots hi ar.data).keeps.bind (fun l h1 _ _ ⟨e, hl⟩ => ?_)
  subst e
  unfold upgraded
  split
  · exact (Safe.pure hi ha).keeps
  · refine (keeps_alloc hi (o := .dims s) (fun w hw => by cases hw)).bind (fun d h2 g2 l2 ⟨_, hd⟩ => ?_)
    refine (keeps_alloc g2 (o := .slots (l.take (prod s))) (fun w hw => (hi.1 _ _ hl w (List.mem_of_mem_take hw)).mono l2)).bind
      (fun p h3 g3 l3 ⟨ep, hp⟩ => ?_)
    refine (Safe.pure g3 ⟨fun q hq => ?_, Or.inr ?_⟩).keeps
    · simp only [ArrRef.val, HV.addrs, List.mem_cons, List.not_mem_nil, or_false] at hq
      rcases hq with rfl | rfl
      · exact Nat.lt_of_lt_of_le hd l3
      · exact hp
    · show h0.length ≤ p
      rw [ep]; exact g2.2.1

theorem keeps_storeElem (et : ElemTypes A T) {h : Heap A T} (hi : AInv h0 S h) {ar : ArrRef T} (ha : Writable h0 S h ar) (i : Int)
    {v : HV A T} (hv : v.Valid h) : KeepsH h0 S (storeElem et ar i v) h (fun ar' h' => Writable h0 S h' ar') := by
  refine (keeps_setElem et hi ha i hv).bind (fun b h1 g1 l1 _ => ?_)
  cases b with
  | true => exact (Safe.pure g1 (ha.mono l1)).keeps
  | false =>
    refine (keeps_upgrade g1 (ha.mono l1)).bind (fun ar' h2 g2 l2 ha' => ?_)
    refine (keeps_setElem et g2 ha' i ((hv.mono l1).mono l2)).bind (fun b h3 g3 l3 _ => ?_)
    cases b with
    | true => exact (Safe.pure g3 (ha'.mono l3)).keeps
    | false => exact (Safe.fail g3).keeps

theorem keeps_modAssign (et : ElemTypes A T) {f : Option (ModFn A T)} (hf : ∀ g, f = some g → PureFn h0.length g) {h : Heap A T} (hi : AInv h0 S h)
    {ar : ArrRef T} (ha : Writable h0 S h ar) (i : Int) {v : HV A T} (hv : v.Valid h) :
    KeepsH h0 S (modAssignH et f ar i v) h (fun ar' h' => Writable h0 S h' ar') := by
  unfold modAssignH
  split
  · exact (Safe.pure hi ha).keeps
  · cases f with
    | none => exact keeps_storeElem et hi ha i hv
    | some f =>
      refine (safe_getSlots hi ar.data).keeps.bind (fun l h1 _ _ ⟨e, hl⟩ => ?_)
      subst e
      refine (Safe.pureH hi (Q := fun x h' => h' = h1 ∧ x ∈ l) (fun x hx => ⟨rfl, slotAt_mem hx⟩)).keeps.bind (fun x h1' _ _ ⟨e, hx⟩ => ?_)
      subst e
      refine (safe_fn' (hf f rfl) hi (l := some x) (fun y hy => by cases hy; exact hi.1 _ _ hl x hx) hv).keeps.bind (fun w h2 g2 l2 hw => ?_)
      exact keeps_storeElem et g2 (ha.mono l2) i hw

theorem keeps_assignOne (et : ElemTypes A T) {f : Option (ModFn A T)} (hf : ∀ g, f = some g → PureFn h0.length g) {v : HV A T} : ∀ (is : List Int)
    {h : Heap A T} (_ : AInv h0 S h) {ar : ArrRef T} (_ : Writable h0 S h ar) (_ : v.Valid h),
    KeepsH h0 S (assignOne et f v is ar) h (fun ar' h' => Writable h0 S h' ar')
  | [], _, hi, _, ha, _ => (Safe.pure hi ha).keeps
  | i :: is, _, hi, _, ha, hv =>
    (keeps_modAssign et hf hi ha i hv).bind (fun _ _ g1 l1 ha' => keeps_assignOne et hf is g1 ha' (hv.mono l1))

theorem keeps_assignEach (et : ElemTypes A T) (n : Nat) {f : Option (ModFn A T)} (hf : ∀ g, f = some g → PureFn h0.length g) (src : Nat) :
    ∀ (is : List Int) (k : Nat) {h : Heap A T} (_ : AInv h0 S h) {ar : ArrRef T} (_ : Writable h0 S h ar),
    KeepsH h0 S (assignEach et n f src is k ar) h (fun ar' h' => Writable h0 S h' ar')
  | [], _, _, hi, _, ha => (Safe.pure hi ha).keeps
  | i :: is, k, h, hi, ar, ha => by
    refine (safe_getSlots hi src).keeps.bind (fun l h1 _ _ ⟨e, hl⟩ => ?_)
    subst e
    refine (Safe.pureH hi (Q := fun x h' => h' = h1 ∧ x ∈ l) (fun x hx => ⟨rfl, slotAt_mem hx⟩)).keeps.bind (fun x h1' _ _ ⟨e, hx⟩ => ?_)
    subst e
    refine (safe_copy hi n (hi.1 _ _ hl x hx)).keeps.bind (fun v h2 g2 l2 hv => ?_)
    exact (keeps_modAssign et hf g2 (ha.mono l2) i hv.1).bind (fun _ _ g3 _ ha' => keeps_assignEach et n hf src is (k + 1) g3 ha')

theorem keeps_assignFrom (et : ElemTypes A T) (n : Nat) {f : Option (ModFn A T)} (hf : ∀ g, f = some g → PureFn h0.length g) {h : Heap A T}
    (hi : AInv h0 S h) {ar : ArrRef T} (ha : Writable h0 S h ar) (idims : List Nat) (is : List Int) (shape : List Nat) {src : Nat}
    {l : List (HV A T)} (hl : h[src]? = some (.slots l)) :
    KeepsH h0 S (assignFrom et n f ar idims is shape src l) h (fun ar' h' => Writable h0 S h' ar') := by
  unfold assignFrom
  split
  · rename_i x
    exact (safe_copy hi n (hi.1 _ _ hl x (by simp [Obj.refs]))).keeps.bind (fun v h2 g2 l2 hv => keeps_assignOne et hf is g2 (ha.mono l2) hv.1)
  · split
    · exact keeps_assignEach et n hf src is 0 hi ha
    · exact (Safe.fail hi).keeps

theorem keeps_assignArr (et : ElemTypes A T) (n : Nat) {f : Option (ModFn A T)} (hf : ∀ g, f = some g → PureFn h0.length g) {h : Heap A T}
    (hi : AInv h0 S h) {ar : ArrRef T} (ha : Writable h0 S h ar) (idims : List Nat) (is : List Int) {r : HV A T} (hr : r.Valid h) :
    KeepsH h0 S (assignArr et n f ar idims is r) h (fun ar' h' => Writable h0 S h' ar') := by
  unfold assignArr
  split
  · refine (safe_getDims hi _).keeps.bind (fun s h1 _ _ ⟨e, _⟩ => ?_)
    subst e
    refine (safe_getSlots hi _).keeps.bind (fun l h1 _ _ ⟨e, hl⟩ => ?_)
    subst e
    exact keeps_assignFrom et n hf hi ha idims is s hl
  · refine (safe_getSlots hi _).keeps.bind (fun l h1 _ _ ⟨e, hl⟩ => ?_)
    subst e
    exact keeps_assignFrom et n hf hi ha idims is _ hl
  · split
    · split
      · exact (Safe.pure hi ha).keeps
      · exact (Safe.fail hi).keeps
    · exact (Safe.fail hi).keeps
  · exact (safe_copy hi n hr).keeps.bind (fun v h2 g2 l2 hv => keeps_assignOne et hf is g2 (ha.mono l2) hv.1)

end

theorem assignTo_any {et : ElemTypes A T} {n : Nat} {origin : Int} {old : Option (HV A T)} {idx : Option (List Nat × List Int)}
    {f : Option (ModFn A T)} {v : HV A T} {h h' : Heap A T} (hf : ∀ g, f = some g → PureFn h.length g) (hh : HeapValid h)
    (hval : ∀ w, old = some w → w.Valid h) (hv : v.Valid h) (hd : ∀ p, old ≠ some (.dict p)) {o : Option (HV A T)}
    (e2 : assignTo et n origin old idx f v h = some (.ok o, h')) :
    AInv h (fun p => ∃ u, old = some u ∧ Uses h u p) h' ∧ h.length ≤ h'.length ∧
      (∀ w, o = some w → AOwn h (fun p => ∃ u, old = some u ∧ Uses h u p) h' w) ∧
      (o = none → ∀ w, old = some w → AOwn h (fun p => ∃ u, old = some u ∧ Uses h u p) h' w) := by
  have hi : AInv h (fun p => ∃ u, old = some u ∧ Uses h u p) h := ⟨hh, Nat.le_refl _, fun _ _ _ => rfl⟩
  have hown : ∀ w, old = some w → AOwn h (fun p => ∃ u, old = some u ∧ Uses h u p) h w :=
    fun w hw => ⟨hval w hw, fun p hp => Or.inl ⟨w, hw, hp⟩⟩
  unfold assignTo at e2
  split at e2
  · obtain ⟨g, q⟩ := (safe_copy hi n hv).bind (Q' := fun o h' => ∀ v, o = some v → AOwn h _ h' v)
      (fun v h1 g1 hv => Safe.pure g1.1 (fun u hu => by cases hu; exact hv)) _ _ e2
    exact ⟨g.1, g.2.1, q _ rfl, fun _ w hw => g.2.2 _ (hown w hw)⟩
  · rename_i f w
    obtain ⟨g, q⟩ := ((safe_fn' (hf f rfl) hi (l := some w) (fun y hy => by cases hy; exact hval w rfl) hv).bind
      (Q' := fun o h' => ∀ v, o = some v → AOwn h _ h' v) (fun v h1 g1 hv =>
        (safe_copy g1.1 n hv).bind (fun v h1 g1 hv => Safe.pure g1.1 (fun u hu => by cases hu; exact hv)))) _ _ e2
    exact ⟨g.1, g.2.1, q _ rfl, fun _ w hw => g.2.2 _ (hown w hw)⟩
  · rename_i idims is w
    have hwo := hown w rfl
    rw [hm_bind] at e2
    rcases e2 with ⟨x, _, hx⟩ | ⟨o', h1, e1, e2⟩
    · cases hx
    cases w with
    | dict p => exact absurd rfl (hd p)
    | list p =>
      unfold assignPart at e1
      obtain ⟨g, q⟩ := (safe_assignListAt hf hi hwo hv).bind (Q' := fun o _ => o = none)
        (fun _ h2 g2 _ => Safe.pure g2.1 rfl) _ _ e1
      have := q _ rfl
      subst this
      simp only [hm_pure] at e2
      obtain ⟨eo, eh⟩ := e2
      rw [eh]
      cases eo
      exact ⟨g.1, g.2.1, (fun w hw => (by cases hw)), fun _ w hw => g.2.2 _ (hown w hw)⟩
    | arr ty d p =>
      unfold assignPart at e1
      obtain ⟨g, l1, q⟩ := (keeps_assignArr et n hf hi (ar := ⟨ty, d, p⟩) ⟨hwo.1, hwo.2 p (.here (by simp [HV.addrs]))⟩ idims is hv).bind
        (Q' := fun o h' => ∃ u, o = some u ∧ u.Valid h') (fun ar h2 g2 l2 ha => (Safe.pure g2 ⟨_, rfl, ha.1⟩).keeps) _ _ e1
      obtain ⟨u, rfl, hu⟩ := q _ rfl
      simp only [hm_bind, hm_pure] at e2
      rcases e2 with ⟨x, _, hx⟩ | ⟨c, h2, ec, eo, eh⟩
      · cases hx
      · obtain ⟨x, hh2, cc⟩ := copyV_copies n _ _ _ _ ec g.1 hu
        rw [← eh] at x hh2 cc
        have g2 := AGood.of_ext g x hh2
        cases eo
        exact ⟨g2.1, Nat.le_trans l1 x.length, fun w hw => by
          cases hw
          exact ⟨(cc _ rfl).1, fun p hp => Or.inr (Nat.le_trans l1 ((cc _ rfl).2.1 p hp))⟩, fun hn => by cases hn⟩
    | _ =>
      unfold assignPart at e1
      simp [hm_fail] at e1
  · rw [hm_fail] at e2
    cases e2.1

/-- **C42.** A modifying function may return the storage of another variable, as `{Z}` does: if the assignment to a
variable that is not a dictionary succeeds, then the other variables have their values, and no storage is shared. -/
theorem C42_any_modifier (et : ElemTypes A T) (origin : Int) (n : Nat) (st : Assign X A T) (σ σ' : Mem X A T)
    (hσ : Arises et origin σ) (hrhs : Expression st.rhs) (hf : ∀ g, st.f = some g → PureFn σ.heap.length g) (hd : ∀ p, σ.vars st.name ≠ some (.dict p))
    (e : st.exec et n origin σ = some (.ok (), σ')) :
    Separate σ' ∧ ∀ y, y ≠ st.name → ∀ t, σ'.Holds y t ↔ σ.Holds y t := by
  have hs := arises_separate hσ
  suffices h : Separate σ' ∧ ∀ y v, y ≠ st.name → σ.vars y = some v →
      σ'.vars y = some v ∧ ∀ p, Uses σ.heap v p → σ'.heap[p]? = σ.heap[p]? by
    exact ⟨h.1, fun y hy t => holds_of_step e h.2 hy t⟩
  refine exec_core hrhs hs e (fun v h o hl hh hval hv e2 er ev => ?_)
  cases o with
  | error x => cases er
  | ok o =>
    obtain ⟨a, b, c, d⟩ := assignTo_any (fun g hg => (hf g hg).mono hl) hh (hval st.name) hv hd e2
    refine ⟨a, b, fun w hw => ?_⟩
    rw [ev] at hw
    cases o with
    | none => exact d rfl w hw
    | some u =>
      simp only [stored, setVar, if_true] at hw
      exact c w hw

/-! ## Where the independence ends -/

section
omit [DecidableEq A]

/-- An array that contains itself cannot be copied: the recursion does not end. -/
theorem copy_cyclic (ty : Option T) (d p : Nat) (s : List Nat) (rest : List (HV A T)) : ∀ (n : Nat) (h : Heap A T),
    h[d]? = some (.dims s) → h[p]? = some (.slots (.arr ty d p :: rest)) → copyV n (.arr ty d p) h = none
  | 0, _, _, _ => rfl
  | n + 1, h, hd, hp => by
    have hp' : p < h.length := (List.getElem?_eq_some_iff.1 hp).1
    have hd' : d < h.length := (List.getElem?_eq_some_iff.1 hd).1
    have ih := copy_cyclic ty d p s rest n (h ++ [.dims s])
      (by rw [List.getElem?_append_left hd']; exact hd) (by rw [List.getElem?_append_left hp']; exact hp)
    cases hc : copyV (n + 1) (.arr ty d p) h with
    | none => rfl
    | some rh =>
      obtain ⟨r, h'⟩ := rh
      simp only [copyV, hm_bind, hm_getDims, hm_getSlots, hm_alloc, hm_pure] at hc
      rcases hc with ⟨er, ⟨hx, _⟩, _⟩ | ⟨s', h1, ⟨hx, rfl⟩, hc⟩
      · rw [hd] at hx; cases hx
      rw [hd] at hx; cases hx
      rcases hc with ⟨er, ⟨hx, _⟩, _⟩ | ⟨d', h2, ⟨hx, rfl⟩, hc⟩
      · cases hx
      have hs : Obj.asSlots (h1 ++ [Obj.dims s])[p]? = .ok (.arr ty d p :: rest) := by
        rw [List.getElem?_append_left hp', hp]; rfl
      rcases hc with ⟨er, ⟨hx', _⟩, _⟩ | ⟨l, h3, ⟨hx', rfl⟩, hc⟩
      · rw [hs] at hx'; cases hx'
      rw [hs] at hx'; cases hx'
      rcases hc with ⟨er, hc, _⟩ | ⟨l', h4, hc, _⟩
      · rw [copyAll, hm_bind, ih] at hc
        simp at hc
      · rw [copyAll, hm_bind, ih] at hc
        simp at hc

end

namespace AliasDemo

/-- Element types for the examples: one compact type, whose elements are the integers that are not negative. -/
def et : ElemTypes Int Unit := ⟨fun _ a => if 0 ≤ a then some a else none, fun _ => false⟩

/-- the expression of a literal vector of integers -/
def ints (l : List Int) : (String → Option (HV Int Unit)) → HM Int Unit (HV Int Unit) := fun _ => do
  let d ← alloc (.dims [l.length])
  let p ← alloc (.slots (l.map .atom))
  pure (.arr (some ()) d p)

/-- the expression of a literal vector of mixed type -/
def mixed (l : List Int) : (String → Option (HV Int Unit)) → HM Int Unit (HV Int Unit) := fun _ => do
  let d ← alloc (.dims [l.length])
  let p ← alloc (.slots (l.map .atom))
  pure (.arr none d p)

/-- the expression of a scalar -/
def scalar (a : Int) : (String → Option (HV Int Unit)) → HM Int Unit (HV Int Unit) := fun _ => pure (.atom a)

/-- `Y←1 2 3` -/
def assignY : Assign String Int Unit := ⟨"Y", none, none, ints [1, 2, 3]⟩
/-- `X←Y` -/
def copyY : Assign String Int Unit := ⟨"X", none, none, readVar "Y"⟩
/-- `Y[1]←9` (the indexes of an evaluated index expression count from zero) -/
def changeY : Assign String Int Unit := ⟨"Y", some ([1], [0]), none, scalar 9⟩

/-- the memory after a statement that succeeds -/
def after (st : Assign String Int Unit) (σ : Mem String Int Unit) : Mem String Int Unit :=
  match st.exec et 5 1 σ with
  | some (_, σ') => σ'
  | none => σ

/-- the value of a variable, up to a depth of 5 -/
def valueOf (σ : Mem String Int Unit) (x : String) : Option (Tree Int Unit) := (σ.vars x).bind (treeOf σ.heap 5)

/-- the empty memory -/
def m0 : Mem String Int Unit := ⟨fun _ => none, []⟩

theorem lits_expression (ty : Option Unit) (l : List Int) : Expression (fun (_ : String → Option (HV Int Unit)) => (do
    let d ← alloc (.dims [l.length])
    let p ← alloc (.slots (l.map HV.atom))
    pure (HV.arr ty d p) : HM Int Unit (HV Int Unit))) := by
  intro vars h r h' e hh _
  simp only [hm_bind, hm_alloc, hm_pure] at e
  rcases e with ⟨x, ⟨hx, _⟩, _⟩ | ⟨d, h1, ⟨hd, rfl⟩, e⟩
  · cases hx
  rcases e with ⟨x, ⟨hx, _⟩, _⟩ | ⟨p, h2, ⟨hp, rfl⟩, rfl, rfl⟩
  · cases hx
  cases hd
  cases hp
  have h1 : HeapValid (h ++ [(Obj.dims [l.length] : Obj Int Unit)]) := alloc_valid hh (fun w hw => by cases hw)
  refine ⟨⟨[.dims [l.length], .slots (l.map .atom)], by simp⟩, alloc_valid h1 (fun w hw => ?_), fun v hv => ?_⟩
  · obtain ⟨a, _, rfl⟩ := List.mem_map.1 hw
    intro p hp
    cases hp
  · cases hv
    intro p hp
    simp only [HV.addrs, List.mem_cons, List.not_mem_nil, or_false] at hp
    rcases hp with rfl | rfl <;> simp

theorem scalar_expression (a : Int) : Expression (scalar a) := by
  intro vars h r h' e hh _
  unfold scalar at e
  rw [hm_pure] at e
  obtain ⟨rfl, rfl⟩ := e
  refine ⟨⟨[], by simp⟩, hh, fun v hv => ?_⟩
  cases hv
  intro p hp
  cases hp

theorem assignY_lawful (σ : Mem String Int Unit) : assignY.Lawful σ := ⟨lits_expression (some ()) _, fun g hg => by cases hg⟩
theorem copyY_lawful (σ : Mem String Int Unit) : copyY.Lawful σ := ⟨readVar_expression _, fun g hg => by cases hg⟩
theorem changeY_lawful (σ : Mem String Int Unit) : changeY.Lawful σ := ⟨scalar_expression _, fun g hg => by cases hg⟩

/-- `Y←1 2 3 ⋄ X←Y ⋄ Y[1]←9`: each statement succeeds, Y is 9 2 3 and X is 1 2 3 -/
example : valueOf (after changeY (after copyY (after assignY m0))) "Y" = some (.arr (some ()) [3] [.atom 9, .atom 2, .atom 3]) ∧
    valueOf (after changeY (after copyY (after assignY m0))) "X" = some (.arr (some ()) [3] [.atom 1, .atom 2, .atom 3]) := ⟨rfl, rfl⟩

/-- the hypotheses of `C42_other_variables` and `C42_independent` are met -/
example : Arises et 1 (after copyY (after assignY m0)) := by
  have h1 : Arises et 1 (after assignY m0) :=
    .step (st := assignY) (n := 5) (r := .ok ()) .start (assignY_lawful _) rfl
  exact .step (st := copyY) (n := 5) (r := .ok ()) h1 (copyY_lawful _) rfl

/-- `Y[1]←¯9` does not fit into the compact array: the array is upgraded -/
example : valueOf (after ⟨"Y", some ([1], [0]), none, scalar (-9)⟩ (after assignY m0)) "Y" =
    some (.arr none [3] [.atom (-9), .atom 2, .atom 3]) := rfl

/-- the modifying function of `X[1]{(⍺;⍵;)}←0`: a new list of the two arguments -/
def pairUp : ModFn Int Unit := fun l r => do
  let p ← alloc (.slots [l.getD .empty, r])
  pure (.list p)

theorem pairUp_ok (m : Nat) : PureFn m pairUp ∧ OwnResult pairUp := by
  have inv : ∀ l r h res h', pairUp l r h = some (res, h') → res = .ok (.list h.length) ∧ h' = h ++ [.slots [l.getD .empty, r]] := by
    intro l r h res h' e
    unfold pairUp at e
    simp only [hm_bind, hm_alloc, hm_pure] at e
    rcases e with ⟨x, ⟨hx, _⟩, _⟩ | ⟨p, h1, ⟨hp, rfl⟩, rfl, rfl⟩
    · cases hx
    · cases hp
      exact ⟨rfl, rfl⟩
  have hval : ∀ (l : Option (HV Int Unit)) (r : HV Int Unit) (h : Heap Int Unit), (∀ x, l = some x → x.Valid h) → r.Valid h →
      ∀ w, w ∈ (Obj.slots [l.getD .empty, r]).refs → w.Valid h := by
    intro l r h hl hr w hw
    simp only [Obj.refs, List.mem_cons, List.not_mem_nil, or_false] at hw
    rcases hw with rfl | rfl
    · cases l with
      | none => intro p hp; cases hp
      | some x => exact hl x rfl
    · exact hr
  constructor
  · intro l r h res h' e _ hh hl hr
    obtain ⟨rfl, rfl⟩ := inv l r h res h' e
    refine ⟨⟨_, rfl⟩, alloc_valid hh (hval l r h hl hr), fun v hv => ?_⟩
    cases hv
    intro p hp
    simp only [HV.addrs, List.mem_cons, List.not_mem_nil, or_false] at hp
    subst hp
    simp
  · intro l r h v h' e p hp
    obtain ⟨hv, rfl⟩ := inv l r h _ h' e
    cases hv
    have hsub : ∀ v p, Uses (h ++ [Obj.slots [l.getD .empty, r]]) v p → Uses h v p ∨ h.length ≤ p ∨ Uses h (l.getD .empty) p ∨ Uses h r p := by
      intro v p hu
      induction hu with
      | here hp => exact Or.inl (.here hp)
      | @there v w o p q hq ho hw _ ih =>
        rcases Nat.lt_or_ge q h.length with hlt | hge
        · rw [List.getElem?_append_left hlt] at ho
          rcases ih with hu | hu
          · exact Or.inl (.there hq ho hw hu)
          · exact Or.inr hu
        · rw [List.getElem?_append_right hge] at ho
          cases hk : q - h.length with
          | succ k => rw [hk] at ho; simp at ho
          | zero =>
            rw [hk] at ho
            cases ho
            simp only [Obj.refs, List.mem_cons, List.not_mem_nil, or_false] at hw
            rcases ih with hu | hu
            · rcases hw with rfl | rfl
              · exact Or.inr (Or.inr (Or.inl hu))
              · exact Or.inr (Or.inr (Or.inr hu))
            · exact Or.inr hu
    rcases hsub _ p hp with hu | hu | hu | hu
    · cases hu with
      | here hq =>
        simp only [HV.addrs, List.mem_cons, List.not_mem_nil, or_false] at hq
        exact Or.inl (by omega)
      | there hq ho =>
        simp only [HV.addrs, List.mem_cons, List.not_mem_nil, or_false] at hq
        subst hq
        simp at ho
    · exact Or.inl hu
    · cases l with
      | none =>
        cases hu with
        | here h => cases h
        | there h => cases h
      | some x => exact Or.inr (Or.inl ⟨x, rfl, hu⟩)
    · exact Or.inr (Or.inr hu)

/-- a modified indexed assignment that meets the hypotheses of `C42_other_variables` -/
example (σ : Mem String Int Unit) : (⟨"Y", some ([2], [0, 2]), some pairUp, scalar 7⟩ : Assign String Int Unit).Lawful σ :=
  ⟨scalar_expression _, fun g hg => by cases hg; exact pairUp_ok _⟩

/-- it succeeds: the array is upgraded and has two nested lists -/
example : valueOf (after ⟨"Y", some ([2], [0, 2]), some pairUp, scalar 7⟩ (after assignY m0)) "Y" =
    some (.arr none [3] [.list [.atom 1, .atom 7], .atom 2, .list [.atom 3, .atom 7]]) := rfl

/-- the modifying function of `X[1 2]{⍺=1:Z ⋄ error}←0`: it returns the storage of Z (the array at the given addresses) for the first
element, and fails for the others -/
def pick (d p : Nat) : ModFn Int Unit := fun l _ =>
  match l with
  | some (.atom a) => if a = 1 then pure (.arr (some ()) d p) else failH .err
  | _ => failH .err

/-- the modifying function of `X[1]{X}←0` -/
def self (d p : Nat) : ModFn Int Unit := fun _ _ => pure (.arr none d p)

/-- Z is 5 6 and X is the mixed array 1 2 -/
def m1 : Mem String Int Unit := after ⟨"X", none, none, mixed [1, 2]⟩ (after ⟨"Z", none, none, ints [5, 6]⟩ m0)
/-- the hypotheses of `C42_any_modifier` are met by `X[1]f←0` for the function that returns the storage of Z; the assignment succeeds, and X
is afterwards an array with the value of Z as its first element -/
example : Arises et 1 m1 ∧ PureFn m1.heap.length (pick 2 3) ∧ (∀ p, m1.vars "X" ≠ some (.dict p)) ∧
    (∃ σ, (⟨"X", some ([1], [0]), some (pick 2 3), scalar 0⟩ : Assign String Int Unit).exec et 5 1 m1 = some (.ok (), σ)) ∧
    valueOf (after ⟨"X", some ([1], [0]), some (pick 2 3), scalar 0⟩ m1) "X" = some (.arr none [2] [.arr (some ()) [2] [.atom 5, .atom 6], .atom 2]) := by
  refine ⟨?_, ?_, ?_, ⟨_, rfl⟩, rfl⟩
  · have h1 : Arises et 1 (after ⟨"Z", none, none, ints [5, 6]⟩ m0) :=
      .step (st := ⟨"Z", none, none, ints [5, 6]⟩) (n := 5) (r := .ok ()) .start ⟨lits_expression (some ()) _, fun g hg => by cases hg⟩ rfl
    exact .step (st := ⟨"X", none, none, mixed [1, 2]⟩) (n := 5) (r := .ok ()) h1 ⟨lits_expression none _, fun g hg => by cases hg⟩ rfl
  · intro l r h res h' e hl hh _ _
    have key : ∀ (x : Except Fail (HV Int Unit)), (∀ v, x = .ok v → v = .arr (some ()) 2 3) → some (x, h) = some (res, h') →
        (∃ new, h' = h ++ new) ∧ HeapValid h' ∧ ∀ v, res = .ok v → v.Valid h' := by
      intro x hx e
      cases e
      refine ⟨⟨[], by simp⟩, hh, fun v hv => ?_⟩
      rw [hx v hv]
      intro p hp
      have hm : m1.heap.length = 8 := rfl
      simp only [HV.addrs, List.mem_cons, List.not_mem_nil, or_false] at hp
      omega
    unfold pick at e
    split at e
    · split at e
      · exact key _ (fun v hv => by cases hv; rfl) e
      · exact key (.error .err) (fun v hv => by cases hv) e
    · exact key (.error .err) (fun v hv => by cases hv) e
  · intro p hp
    have hx : m1.vars "X" = some (.arr none 6 7) := rfl
    rw [hx] at hp
    cases hp

/-- after `X[1 2]{⍺=1:Z ⋄ error}←0`, where Z is at the addresses 2 and 3 -/
def m2 : Mem String Int Unit := after ⟨"X", some ([2], [0, 1]), some (pick 2 3), scalar 0⟩ m1
/-- after `Z[1]←9` -/
def m3 : Mem String Int Unit := after ⟨"Z", some ([1], [0]), none, scalar 9⟩ m2

end AliasDemo

open AliasDemo in
/-- **C42.** If an indexed assignment with a modifying function that returns the storage of another variable fails half-way, the two
variables share storage: after the failing `X[1 2]f←0`, `Z[1]←9` changes X. -/
theorem C42_failed_modifier :
    (∃ σ, (⟨"X", some ([2], [0, 1]), some (pick 2 3), scalar 0⟩ : Assign String Int Unit).exec et 5 1 m1 = some (.error .err, σ)) ∧
    m1.vars "Z" = some (.arr (some ()) 2 3) ∧
    valueOf m2 "X" = some (.arr none [2] [.arr (some ()) [2] [.atom 5, .atom 6], .atom 2]) ∧
    valueOf m3 "X" = some (.arr none [2] [.arr (some ()) [2] [.atom 9, .atom 6], .atom 2]) := by
  refine ⟨⟨m2, rfl⟩, rfl, rfl, rfl⟩

open AliasDemo in
/-- **C42.** A modifying function that returns the variable itself makes a mixed array that contains itself; copying it does not end,
for any recursion depth (the Go program exhausts its stack). -/
theorem C42_self_containing (n : Nat) :
    m1.vars "X" = some (.arr none 6 7) ∧
    (⟨"X", some ([1], [0]), some (self 6 7), scalar 0⟩ : Assign String Int Unit).exec et n 1 m1 = none := by
  refine ⟨rfl, ?_⟩
  cases n with
  | zero => rfl
  | succ n =>
    have h := copy_cyclic (A := Int) (T := Unit) none 6 7 [2] [.atom 2] (n + 1)
      (m1.heap.set 7 (.slots [.arr none 6 7, .atom 2])) rfl rfl
    have e1 : assignPart et (n + 1) 1 (.arr none 6 7) [1] [0] (some (self 6 7)) (.atom 0) m1.heap =
      some (.ok (some (.arr none 6 7)), m1.heap.set 7 (.slots [.arr none 6 7, .atom 2])) := rfl
    cases hx : (⟨"X", some ([1], [0]), some (self 6 7), scalar 0⟩ : Assign String Int Unit).exec et (n + 1) 1 m1 with
    | none => rfl
    | some rs =>
      obtain ⟨r, σ⟩ := rs
      rcases exec_inv hx with ⟨er, ex, _⟩ | ⟨v, h', o, ex, ea, _⟩
      · cases ex
      · cases ex
        have ea : (assignPart et (n + 1) 1 (.arr none 6 7) [1] [0] (some (self 6 7)) (.atom 0) >>= fun v =>
          (match v with
          | none => pure none
          | some v => do
            let v' ← copyV (n + 1) v
            pure (some v') : HM Int Unit (Option (HV Int Unit)))) m1.heap = some (o, σ.heap) := ea
        rw [hm_bind, e1] at ea
        rcases ea with ⟨x, hx, _⟩ | ⟨a, h1, hx, ea⟩
        · cases hx
        · cases hx
          simp only [hm_bind, h] at ea
          simp at ea

open AliasDemo in
/-- **C42.** The arguments of a lambda are bound without a copy (apl/lambda.go).  With `⍵` bound to the value of Y,
`⍵[1]←9` changes Y. -/
theorem C42_lambda_argument :
    let σ : Mem String Int Unit := ⟨setVar (after assignY m0).vars "⍵" (.arr (some ()) 2 3), (after assignY m0).heap⟩
    (after assignY m0).vars "Y" = some (.arr (some ()) 2 3) ∧
    valueOf σ "Y" = some (.arr (some ()) [3] [.atom 1, .atom 2, .atom 3]) ∧
    valueOf (after ⟨"⍵", some ([1], [0]), none, scalar 9⟩ σ) "Y" = some (.arr (some ()) [3] [.atom 9, .atom 2, .atom 3]) :=
  ⟨rfl, rfl, rfl⟩

end Iv

import Verif.Props.Alias
import Verif.Model.AliasTake
/-
C07: what take, drop and transpose do to their arguments.
-/
namespace Iv

variable {A T : Type}

/-- The code leaves every object as it is, except those in `S`. -/
def Touches {α : Type} (S : Nat → Prop) (m : HM A T α) (h : Heap A T) (Q : α → Heap A T → Prop) : Prop :=
  ∀ r h', m h = some (r, h') → (h.length ≤ h'.length ∧ ∀ p, p < h.length → ¬ S p → h'[p]? = h[p]?) ∧ ∀ a, r = .ok a → Q a h'

theorem Touches.bind {α β : Type} {S : Nat → Prop} {m : HM A T α} {k : α → HM A T β} {h : Heap A T} {Q : α → Heap A T → Prop}
    {Q' : β → Heap A T → Prop} (hm : Touches S m h Q) (hk : ∀ a h1, h.length ≤ h1.length → Q a h1 → Touches S (k a) h1 Q') :
    Touches S (m >>= k) h Q' := by
  intro r h' e
  rw [hm_bind] at e
  rcases e with ⟨er, e, rfl⟩ | ⟨a, h1, e1, e⟩
  · exact ⟨(hm _ _ e).1, fun _ hr => by cases hr⟩
  · obtain ⟨⟨l, g⟩, q⟩ := hm _ _ e1
    obtain ⟨⟨l', g'⟩, q'⟩ := hk a h1 l (q a rfl) r h' e
    exact ⟨⟨Nat.le_trans l l', fun p hp hs => (g' p (Nat.lt_of_lt_of_le hp l) hs).trans (g p hp hs)⟩, q'⟩

theorem Touches.mono {α : Type} {S : Nat → Prop} {m : HM A T α} {h : Heap A T} {Q Q' : α → Heap A T → Prop} (hm : Touches S m h Q)
    (hq : ∀ a h', Q a h' → Q' a h') : Touches S m h Q' := fun r h' e => ⟨(hm r h' e).1, fun a ha => hq a h' ((hm r h' e).2 a ha)⟩

theorem Touches.same {α : Type} {S : Nat → Prop} {m : HM A T α} {h : Heap A T} {Q : α → Heap A T → Prop}
    (hm : ∀ r h', m h = some (r, h') → h' = h ∧ ∀ a, r = .ok a → Q a h') : Touches S m h Q := by
  intro r h' e
  obtain ⟨rfl, q⟩ := hm r h' e
  exact ⟨⟨Nat.le_refl _, fun _ _ _ => rfl⟩, q⟩

theorem touches_pure {α : Type} {S : Nat → Prop} {a : α} {h : Heap A T} {Q : α → Heap A T → Prop} (hq : Q a h) :
    Touches S (pure a : HM A T α) h Q :=
  .same fun r h' e => by rw [hm_pure] at e; obtain ⟨rfl, rfl⟩ := e; exact ⟨rfl, fun b hb => by cases hb; exact hq⟩

theorem touches_fail {α : Type} {S : Nat → Prop} {x : Fail} {h : Heap A T} {Q : α → Heap A T → Prop} : Touches S (failH x : HM A T α) h Q :=
  .same fun r h' e => by rw [hm_fail] at e; obtain ⟨rfl, rfl⟩ := e; exact ⟨rfl, fun b hb => by cases hb⟩

theorem touches_pureH {α : Type} {S : Nat → Prop} {x : Res α} {h : Heap A T} : Touches S (pureH x : HM A T α) h (fun a h' => h' = h ∧ x = .ok a) :=
  .same fun r h' e => by rw [hm_pureH] at e; obtain ⟨rfl, rfl⟩ := e; exact ⟨rfl, fun b hb => ⟨rfl, hb⟩⟩

theorem touches_getDims {S : Nat → Prop} {p : Nat} {h : Heap A T} : Touches S (getDims p) h (fun l h' => h' = h ∧ h[p]? = some (.dims l)) :=
  .same fun r h' e => by rw [hm_getDims] at e; obtain ⟨rfl, rfl⟩ := e; exact ⟨rfl, fun b hb => ⟨rfl, asDims_ok.1 hb⟩⟩

theorem touches_getSlots {S : Nat → Prop} {p : Nat} {h : Heap A T} : Touches S (getSlots p) h (fun l h' => h' = h ∧ h[p]? = some (.slots l)) :=
  .same fun r h' e => by rw [hm_getSlots] at e; obtain ⟨rfl, rfl⟩ := e; exact ⟨rfl, fun b hb => ⟨rfl, asSlots_ok.1 hb⟩⟩

theorem touches_getDict {S : Nat → Prop} {p : Nat} {h : Heap A T} : Touches S (getDict p) h (fun _ h' => h' = h) :=
  .same fun r h' e => by rw [hm_getDict] at e; obtain ⟨rfl, rfl⟩ := e; exact ⟨rfl, fun b hb => rfl⟩

theorem touches_alloc {S : Nat → Prop} {o : Obj A T} {h : Heap A T} : Touches S (alloc o) h (fun p h' => p = h.length ∧ h' = h ++ [o]) := by
  intro r h' e
  rw [hm_alloc] at e
  obtain ⟨rfl, rfl⟩ := e
  exact ⟨⟨by simp, fun p hp _ => List.getElem?_append_left hp⟩, fun a ha => by cases ha; exact ⟨rfl, rfl⟩⟩

theorem touches_put {S : Nat → Prop} {p : Nat} {o : Obj A T} {h : Heap A T} (hp : S p) :
    Touches S (putObj p o) h (fun _ h' => h' = h.set p o) := by
  intro r h' e
  rw [hm_put] at e
  obtain ⟨rfl, rfl⟩ := e
  exact ⟨⟨by simp, fun q _ hs => List.getElem?_set_ne (by rintro rfl; exact hs hp)⟩, fun _ _ => rfl⟩

theorem touches_copyAll {S : Nat → Prop} {c : HV A T → HM A T (HV A T)} (hc : ∀ v h, Touches S (c v) h (fun _ _ => True)) :
    ∀ (l : List (HV A T)) (h : Heap A T), Touches S (copyAll c l) h (fun _ _ => True)
  | [], _ => touches_pure trivial
  | v :: l, h => (hc v h).bind (fun _ h1 _ _ => (touches_copyAll hc l h1).bind (fun _ _ _ _ => touches_pure trivial))

theorem touches_copyMap {S : Nat → Prop} {c : HV A T → HM A T (HV A T)} (hc : ∀ v h, Touches S (c v) h (fun _ _ => True)) :
    ∀ (l : List (A × HV A T)) (h : Heap A T), Touches S (copyMap c l) h (fun _ _ => True)
  | [], _ => touches_pure trivial
  | (k, v) :: l, h => (hc v h).bind (fun _ h1 _ _ => (touches_copyMap hc l h1).bind (fun _ _ _ _ => touches_pure trivial))

theorem touches_copy {S : Nat → Prop} : ∀ (n : Nat) (v : HV A T) (h : Heap A T), Touches S (copyV n v) h (fun _ _ => True)
  | 0, v, h => fun r h' e => by cases v <;> cases e
  | _ + 1, .atom _, _ => touches_pure trivial
  | _ + 1, .empty, _ => touches_pure trivial
  | n + 1, .arr ty d p, h => touches_getDims.bind fun _ _ _ _ => touches_alloc.bind fun _ _ _ _ => touches_getSlots.bind fun l h1 _ _ =>
      (touches_copyAll (touches_copy n) l h1).bind fun _ _ _ _ => touches_alloc.bind fun _ _ _ _ => touches_pure trivial
  | n + 1, .list p, h => touches_getSlots.bind fun l h1 _ _ =>
      (touches_copyAll (touches_copy n) l h1).bind fun _ _ _ _ => touches_alloc.bind fun _ _ _ _ => touches_pure trivial
  | n + 1, .dict p, h => touches_getDict.bind fun km h1 _ _ =>
      (touches_copyMap (touches_copy n) km.2 h1).bind fun _ _ _ _ => touches_alloc.bind fun _ _ _ _ => touches_pure trivial
  | n + 1, .table p rows, h => touches_getDict.bind fun km h1 _ _ =>
      (touches_copyMap (touches_copy n) km.2 h1).bind fun _ _ _ _ => touches_alloc.bind fun _ _ _ _ => touches_pure trivial

theorem touches_takeNew {S : Nat → Prop} {n : Nat} {ty : Option T} {a : Arr (HV A T)} {h : Heap A T} :
    Touches S (takeNew n ty a) h (fun _ _ => True) :=
  (touches_copyAll (touches_copy n) _ h).bind fun _ _ _ _ => touches_alloc.bind fun _ _ _ _ => touches_alloc.bind fun _ _ _ _ =>
    touches_pure trivial

/-- the rank of the right argument of take and drop, with `k` counts on the left -/
def rankOf (h : Heap A T) (k : Nat) : HV A T → Option Nat
  | .arr _ d _ => (dimsAt h d).map List.length
  | .list _ => some 1
  | .empty => some 0
  | _ => some k

/-- The storage of the left argument that take and drop write to: its shape if it has fewer counts than the right argument has axes;
otherwise its elements, for drop. -/
def leftTouched (take : Bool) (ld lp len rank : Nat) (p : Nat) : Prop :=
  (len < rank ∧ p = ld) ∨ (len = rank ∧ take = false ∧ p = lp)

theorem touches_rightRef {S : Nat → Prop} {n k : Nat} {r : HV A T} {h : Heap A T} :
    Touches S (rightRef n k r) h (fun ar h' => ∀ s, h'[ar.dims]? = some (.dims s) → rankOf h k r = some s.length) := by
  unfold rightRef
  split
  · refine touches_pure (fun s hs => ?_)
    show (dimsAt h _).map List.length = _
    rw [dimsAt_some.2 hs]
    rfl
  · refine touches_getSlots.bind fun l h1 _ _ => touches_alloc.bind fun d h2 _ hd => touches_pure (fun s hs => ?_)
    obtain ⟨rfl, rfl⟩ := hd
    simp at hs
    subst hs
    rfl
  · refine touches_alloc.bind fun d h2 _ hd => touches_alloc.bind fun p h3 _ hp => touches_pure (fun s hs => ?_)
    obtain ⟨rfl, rfl⟩ := hd
    obtain ⟨rfl, rfl⟩ := hp
    simp at hs
    subst hs
    rfl
  · rename_i x1 x2 x3
    refine (touches_copy n r h).bind fun w h1 _ _ => touches_alloc.bind fun d h2 _ hd => touches_alloc.bind fun p h3 _ hp => touches_pure (fun s hs => ?_)
    obtain ⟨rfl, rfl⟩ := hd
    obtain ⟨rfl, rfl⟩ := hp
    simp at hs
    subst hs
    cases r with
    | arr ty d p => exact absurd rfl (x1 ty d p)
    | list p => exact absurd rfl (x2 p)
    | empty => exact absurd rfl x3
    | atom a => simp [rankOf]
    | dict p => simp [rankOf]
    | table p rows => simp [rankOf]

theorem touches_adjust {ic : IntCode A} {take : Bool} {ld lp : Nat} {ls rs ax : List Nat} {is : List Int} {h : Heap A T}
    (hle : is.length ≤ rs.length) :
    Touches (leftTouched take ld lp is.length rs.length) (adjustLeft ic take ld lp ls rs ax is) h (fun _ _ => True) := by
  unfold adjustLeft
  split
  · rename_i hlt
    cases ls with
    | nil => exact touches_fail
    | cons k ls => exact (touches_put (Or.inl ⟨hlt, rfl⟩)).bind fun _ _ _ _ => touches_pure trivial
  · rename_i hlt
    split
    · exact touches_pure trivial
    · rename_i ht
      exact (touches_put (Or.inr ⟨by omega, by simpa using ht, rfl⟩)).bind fun _ _ _ _ => touches_pure trivial

theorem mapM_opt_length {α β : Type} {f : α → Option β} : ∀ {l : List α} {m : List β}, l.mapM f = some m → m.length = l.length
  | [], m, e => by cases e; rfl
  | x :: l, m, e => by
    rw [List.mapM_cons] at e
    simp only [Option.bind_eq_bind, Option.bind_eq_some_iff] at e
    obtain ⟨y, _, ys, e2, e3⟩ := e
    cases e3
    simp [mapM_opt_length e2]

theorem touches_takedrop (ic : IntCode A) (int : T) (n : Nat) (take : Bool) (z : HV A T) (ld lp : Nat) (r : HV A T) (x : List Int)
    (h : Heap A T) (l : List (HV A T)) (hl : h[lp]? = some (.slots l)) (k : Nat) (hk : rankOf h l.length r = some k) :
    Touches (leftTouched take ld lp l.length k) (takedropH ic int n take z ld lp r x) h (fun _ _ => True) := by
  refine touches_getDims.bind fun ls h1 _ ⟨e, _⟩ => ?_
  subst e
  refine touches_getSlots.bind fun l' h1' _ ⟨e, hl'⟩ => ?_
  subst e
  rw [hl] at hl'
  cases hl'
  refine touches_pureH.bind fun is h2 _ ⟨e, his⟩ => ?_
  subst e
  have hlen : is.length = l.length := by
    unfold intsOf at his
    cases hm : l.mapM (intOf ic) with
    | none => rw [hm] at his; cases his
    | some js =>
      rw [hm] at his
      cases his
      exact (mapM_opt_length hm)
  split
  · exact touches_fail
  · split
    · exact touches_alloc.bind fun _ _ _ _ => touches_alloc.bind fun _ _ _ _ => touches_pure trivial
    · refine touches_rightRef.bind fun ar h3 _ har => touches_getDims.bind fun rs h4 _ ⟨e, hrs⟩ => ?_
      subst e
      have hkk := har rs hrs
      rw [hlen, hk] at hkk
      cases hkk
      refine touches_pureH.bind fun ax h5 _ ⟨e, hax⟩ => ?_
      subst e
      split
      · exact touches_fail
      · rename_i hle
        rw [← hlen]
        refine (touches_adjust (Nat.le_of_not_lt hle)).bind fun ai h6 _ _ => touches_getDims.bind fun rs' h7 _ _ =>
          touches_getSlots.bind fun l2 h8 _ _ => touches_pureH.bind fun a h9 _ _ => touches_takeNew

theorem touches_tree {α : Type} {S : Nat → Prop} {m : HM A T α} {h h' : Heap A T} {Q : α → Heap A T → Prop} {r : Except Fail α}
    (ht : Touches S m h Q) (e : m h = some (r, h')) (hh : HeapValid h) {v : HV A T} (hv : v.Valid h) (hs : ∀ p, Uses h v p → ¬ S p)
    (t : Tree A T) : Denotes h' v t ↔ Denotes h v t := by
  have ha : ∀ k, treeOf h' k v = treeOf h k v := fun k =>
    tree_agree k v (fun p hp => (ht r h' e).1.2 p (uses_valid hh hp hv) (hs p hp))
  constructor
  · rintro ⟨k, hk⟩; exact ⟨k, (ha k).symm.trans hk⟩
  · rintro ⟨k, hk⟩; exact ⟨k, (ha k).trans hk⟩

/-- **C07.** `L↑R` and `L↓R`, successful or not, change no value that does not use the storage of L: neither R nor any other
variable, unless it shares storage with L.  Missing for the full property: L itself is changed, see `C07_drop_overwrites` and
`C07_short_left`. -/
theorem C07_others_partial (ic : IntCode A) (int : T) (n : Nat) (take : Bool) (z : HV A T) (ld lp : Nat) (r : HV A T) (x : List Int)
    (h h' : Heap A T) (res : Except Fail (HV A T)) (hh : HeapValid h) (hr : r.Valid h)
    (e : takedropH ic int n take z ld lp r x h = some (res, h'))
    (v : HV A T) (hv : v.Valid h) (hs : ¬ Uses h v ld ∧ ¬ Uses h v lp) (t : Tree A T) : Denotes h' v t ↔ Denotes h v t := by
  by_cases hl : ∃ l, h[lp]? = some (.slots l)
  · obtain ⟨l, hl⟩ := hl
    by_cases hk : ∃ k, rankOf h l.length r = some k
    · obtain ⟨k, hk⟩ := hk
      refine touches_tree (touches_takedrop ic int n take z ld lp r x h l hl k hk) e hh hv (fun p hp hS => ?_) t
      rcases hS with ⟨_, rfl⟩ | ⟨_, _, rfl⟩
      · exact hs.1 hp
      · exact hs.2 hp
    · -- the right argument has no shape
      have : Touches (fun _ => False) (takedropH ic int n take z ld lp r x) h (fun _ _ => True) := by
        refine touches_getDims.bind fun ls h1 _ ⟨e, _⟩ => ?_
        subst e
        refine touches_getSlots.bind fun l' h1' _ ⟨e, hl'⟩ => ?_
        subst e
        rw [hl] at hl'
        cases hl'
        refine touches_pureH.bind fun is h2 _ ⟨e, his⟩ => ?_
        subst e
        have hlen : is.length = l.length := by
          unfold intsOf at his
          cases hm : l.mapM (intOf ic) with
          | none => rw [hm] at his; cases his
          | some js => rw [hm] at his; cases his; exact mapM_opt_length hm
        split
        · exact touches_fail
        · split
          · exact touches_alloc.bind fun _ _ _ _ => touches_alloc.bind fun _ _ _ _ => touches_pure trivial
          · refine touches_rightRef.bind fun ar h3 _ har => touches_getDims.bind fun rs h4 _ ⟨e, hrs⟩ => ?_
            rw [← hlen] at hk
            exact absurd ⟨_, har rs hrs⟩ hk
      exact touches_tree this e hh hv (fun _ _ hf => hf) t
  · -- the left argument has no elements
    have : Touches (fun _ => False) (takedropH ic int n take z ld lp r x) h (fun _ _ => True) := by
      refine touches_getDims.bind fun ls h1 _ ⟨e, _⟩ => ?_
      subst e
      exact touches_getSlots.bind fun l' h1' _ ⟨e, hl'⟩ => absurd ⟨l', hl'⟩ hl
    exact touches_tree this e hh hv (fun _ _ hf => hf) t

/-- **C07.** `L↑R` with as many counts in L as R has axes changes nothing at all, neither L nor R nor any other variable. -/
theorem C07_take_partial (ic : IntCode A) (int : T) (n : Nat) (z : HV A T) (ld lp : Nat) (r : HV A T) (x : List Int)
    (h h' : Heap A T) (res : Except Fail (HV A T)) (hh : HeapValid h) (l : List (HV A T)) (hl : h[lp]? = some (.slots l))
    (hk : rankOf h l.length r = some l.length) (e : takedropH ic int n true z ld lp r x h = some (res, h'))
    (v : HV A T) (hv : v.Valid h) (t : Tree A T) : Denotes h' v t ↔ Denotes h v t := by
  refine touches_tree (touches_takedrop ic int n true z ld lp r x h l hl _ hk) e hh hv (fun p hp hS => ?_) t
  rcases hS with ⟨hlt, _⟩ | ⟨_, ht, _⟩
  · exact absurd hlt (Nat.lt_irrefl _)
  · cases ht

/-- what happens before the left argument is adjusted, for an array on the right -/
theorem takedrop_inv {ic : IntCode A} {int : T} {n : Nat} {take : Bool} {z : HV A T} {ld lp d p : Nat} {ty : Option T} {x : List Int}
    {h h' : Heap A T} {v : HV A T} {ls rs : List Nat} {l : List (HV A T)} {is : List Int} (hls : h[ld]? = some (.dims ls))
    (hl : h[lp]? = some (.slots l)) (his : l.mapM (intOf ic) = some is) (hrs : h[d]? = some (.dims rs))
    (e : takedropH ic int n take z ld lp (.arr ty d p) x h = some (.ok v, h')) :
    is.length ≤ rs.length ∧ ∃ ax ai h1, completeAxes rs.length x = .ok ax ∧ adjustLeft ic take ld lp ls rs ax is h = some (.ok ai, h1) ∧
      ∀ q, q < h1.length → h'[q]? = h1[q]? := by
  simp only [takedropH, hm_bind, hm_getDims, hm_getSlots, hm_pureH] at e
  rcases e with ⟨_, _, hx⟩ | ⟨ls', h1, ⟨e1, rfl⟩, e⟩
  · cases hx
  rw [hls] at e1; cases e1
  rcases e with ⟨_, _, hx⟩ | ⟨l', h2, ⟨e1, rfl⟩, e⟩
  · cases hx
  rw [hl] at e1; cases e1
  rcases e with ⟨_, _, hx⟩ | ⟨is', h3, ⟨e1, rfl⟩, e⟩
  · cases hx
  have : is' = is := by
    unfold intsOf at e1
    rw [his] at e1
    cases e1; rfl
  subst this
  split at e
  · rw [hm_fail] at e; cases e.1
  simp only [takedropRef, rightRef, hm_bind, hm_getDims, hm_pure, hm_pureH] at e
  rcases e with ⟨_, ⟨hx, _⟩, _⟩ | ⟨ar, h4, ⟨e1, rfl⟩, e⟩
  · cases hx
  cases e1
  rcases e with ⟨_, _, hx⟩ | ⟨rs', h5, ⟨e1, rfl⟩, e⟩
  · cases hx
  rw [hrs] at e1; cases e1
  rcases e with ⟨_, _, hx⟩ | ⟨ax, h6, ⟨e1, rfl⟩, e⟩
  · cases hx
  split at e
  · rw [hm_fail] at e; cases e.1
  rename_i hle
  rw [hm_bind] at e
  rcases e with ⟨_, _, hx⟩ | ⟨ai, h7, e2, e⟩
  · cases hx
  refine ⟨Nat.le_of_not_lt hle, ax, ai, h7, e1.symm, e2, fun q hq => ?_⟩
  have ht : Touches (fun _ => False) (getDims d >>= fun rs' => getSlots p >>= fun l =>
      pureH (takeArr z ai ⟨rs', l⟩ ax) >>= fun a => takeNew n ty a) h7 (fun _ _ => True) :=
    touches_getDims.bind fun _ _ _ _ => touches_getSlots.bind fun _ _ _ _ => touches_pureH.bind fun _ _ _ _ => touches_takeNew
  exact (ht _ _ e).1.2 q hq (fun hf => hf)

/-- **C07.** `L↓R` with as many counts in L as R has axes overwrites L: afterwards each count is the count of the equivalent take. -/
theorem C07_drop_overwrites (ic : IntCode A) (int : T) (n : Nat) (z : HV A T) (ld lp d p : Nat) (ty : Option T)
    (h h' : Heap A T) (v : HV A T) (ls rs : List Nat) (l : List (HV A T)) (is : List Int) (hls : h[ld]? = some (.dims ls))
    (hl : h[lp]? = some (.slots l)) (his : l.mapM (intOf ic) = some is) (hrs : h[d]? = some (.dims rs)) (hlen : is.length = rs.length)
    (e : takedropH ic int n false z ld lp (.arr ty d p) [] h = some (.ok v, h')) :
    h'[lp]? = some (.slots ((List.zipWith (fun (m : Nat) (k : Int) =>
      if (m : Int) ≤ k ∨ (m : Int) ≤ -k then 0 else if 0 < k then k - m else k + m) rs is).map (fun k => .atom (ic.enc k)))) := by
  obtain ⟨_, ax, ai, h1, eax, ea, hq⟩ := takedrop_inv hls hl his hrs e
  have hax : ax = List.range rs.length := by
    simp [completeAxes] at eax
    exact eax.symm
  subst hax
  unfold adjustLeft at ea
  rw [if_neg (by omega)] at ea
  simp only [Bool.false_eq_true, if_false, hm_bind, hm_put, hm_pure] at ea
  rcases ea with ⟨_, ⟨hx, _⟩, _⟩ | ⟨_, h2, ⟨_, rfl⟩, _, rfl⟩
  · cases hx
  have hlt : lp < h.length := (List.getElem?_eq_some_iff.1 hl).1
  rw [hq lp (by simpa using hlt), List.getElem?_set_self hlt]
  have : takeCounts false rs (List.range rs.length) is = List.zipWith (fun (m : Nat) (k : Int) =>
      if (m : Int) ≤ k ∨ (m : Int) ≤ -k then 0 else if 0 < k then k - m else k + m) rs is := by
    unfold takeCounts
    rw [if_neg (by simp)]
    apply List.ext_getElem
    · simp
    · intro i h1 h2
      simp only [List.length_zipWith, List.length_range] at h1
      have hi : i < rs.length := by omega
      simp [dropToTake, hi]
  rw [this]

/-- **C07.** `L↑R` or `L↓R` with fewer counts in L than R has axes sets the length of L to the rank of R, without giving it more elements:
L is no longer a proper vector. -/
theorem C07_short_left (ic : IntCode A) (int : T) (n : Nat) (take : Bool) (z : HV A T) (ld lp d p : Nat) (ty : Option T) (x : List Int)
    (h h' : Heap A T) (v : HV A T) (k : Nat) (rs : List Nat) (l : List (HV A T)) (is : List Int) (hls : h[ld]? = some (.dims [k]))
    (hl : h[lp]? = some (.slots l)) (his : l.mapM (intOf ic) = some is) (hrs : h[d]? = some (.dims rs)) (hlen : is.length < rs.length)
    (e : takedropH ic int n take z ld lp (.arr ty d p) x h = some (.ok v, h')) :
    h'[ld]? = some (.dims [rs.length]) ∧ h'[lp]? = some (.slots l) := by
  obtain ⟨_, ax, ai, h1, eax, ea, hq⟩ := takedrop_inv hls hl his hrs e
  unfold adjustLeft at ea
  rw [if_pos hlen] at ea
  simp only [hm_bind, hm_put, hm_pure] at ea
  rcases ea with ⟨_, ⟨hx, _⟩, _⟩ | ⟨_, h2, ⟨_, rfl⟩, _, rfl⟩
  · cases hx
  have hlt : ld < h.length := (List.getElem?_eq_some_iff.1 hls).1
  have hlt' : lp < h.length := (List.getElem?_eq_some_iff.1 hl).1
  have hne : ld ≠ lp := by rintro rfl; rw [hls] at hl; cases hl
  exact ⟨by rw [hq ld (by simpa using hlt), List.getElem?_set_self hlt],
    by rw [hq lp (by simpa using hlt'), List.getElem?_set_ne hne]; exact hl⟩

theorem touches_transpose (ic : IntCode A) (n : Nat) (origin : Int) (ld lp : Nat) (r : ArrRef T) (h : Heap A T) :
    Touches (fun p => origin = 0 ∧ p = lp) (transposeH ic n origin ld lp r) h (fun _ _ => True) := by
  refine touches_getDims.bind fun _ _ _ _ => touches_getDims.bind fun _ _ _ _ => touches_getSlots.bind fun _ _ _ _ => touches_pureH.bind fun is h1 _ _ => ?_
  split
  · exact touches_fail
  · refine Touches.bind (Q := fun _ _ => True) ?_ (fun _ _ _ _ => touches_getSlots.bind fun _ _ _ _ => touches_pureH.bind fun _ _ _ _ => touches_takeNew)
    unfold bumpLeft
    split
    · rename_i h0
      exact (touches_put ⟨h0, rfl⟩).bind fun _ _ _ _ => touches_pure trivial
    · exact touches_pure trivial

/-- **C07.** `L⍉R` with `⎕IO←1`, successful or not, changes no value; with `⎕IO←0` it changes none that does not use the elements of L. -/
theorem C07_transpose_partial (ic : IntCode A) (n : Nat) (origin : Int) (ld lp : Nat) (r : ArrRef T) (h h' : Heap A T)
    (res : Except Fail (HV A T)) (hh : HeapValid h) (e : transposeH ic n origin ld lp r h = some (res, h')) (v : HV A T) (hv : v.Valid h)
    (hs : origin = 0 → ¬ Uses h v lp) (t : Tree A T) : Denotes h' v t ↔ Denotes h v t :=
  touches_tree (touches_transpose ic n origin ld lp r h) e hh hv (fun p hp hS => hs hS.1 (hS.2 ▸ hp)) t

/-- **C07.** `L⍉R` with `⎕IO←0` adds one to every element of L. -/
theorem C07_transpose_increments (ic : IntCode A) (n : Nat) (ld lp : Nat) (r : ArrRef T) (h h' : Heap A T) (v : HV A T) (l : List (HV A T))
    (is : List Int) (hl : h[lp]? = some (.slots l)) (his : l.mapM (intOf ic) = some is)
    (e : transposeH ic n 0 ld lp r h = some (.ok v, h')) : h'[lp]? = some (.slots (is.map (fun k => .atom (ic.enc (k + 1))))) := by
  simp only [transposeH, hm_bind, hm_getDims, hm_getSlots, hm_pureH] at e
  rcases e with ⟨_, _, hx⟩ | ⟨rs, h1, ⟨_, rfl⟩, e⟩
  · cases hx
  rcases e with ⟨_, _, hx⟩ | ⟨ls, h1', ⟨_, rfl⟩, e⟩
  · cases hx
  rcases e with ⟨_, _, hx⟩ | ⟨l', h2, ⟨e1, rfl⟩, e⟩
  · cases hx
  rw [hl] at e1; cases e1
  rcases e with ⟨_, _, hx⟩ | ⟨is', h3, ⟨e1, rfl⟩, e⟩
  · cases hx
  have : is' = is := by
    unfold intsOf at e1
    rw [his] at e1
    cases e1; rfl
  subst this
  split at e
  · rw [hm_fail] at e; cases e.1
  rw [bumpLeft, if_pos rfl, hm_bind] at e
  simp only [hm_bind, hm_put, hm_pure] at e
  rcases e with ⟨_, hx, hy⟩ | ⟨al, h4, hb, e⟩
  · cases hy
  rcases hb with ⟨_, hx, hy⟩ | ⟨_, h5, ⟨_, rfl⟩, _, rfl⟩
  · cases hy
  have hlt : lp < h3.length := (List.getElem?_eq_some_iff.1 hl).1
  have ht : Touches (fun _ => False) (getSlots r.data >>= fun d => pureH (transposeArr 1 (some al) ⟨rs, d⟩) >>= fun a => takeNew n r.ty a)
      (h3.set lp (.slots (is'.map (fun k => .atom (ic.enc (k + 1)))))) (fun _ _ => True) :=
    touches_getSlots.bind fun _ _ _ _ => touches_pureH.bind fun _ _ _ _ => touches_takeNew
  have hfin := (ht _ _ (by simp only [hm_bind]; exact e)).1.2 lp (by simpa using hlt) (fun hf => hf)
  rw [hfin, List.getElem?_set_self hlt]

namespace AliasDemo2

/-- integers are the scalars of the example -/
def ic : IntCode Int := ⟨id, some⟩

/-- N is the vector ,2 at 0 and 1; R is the vector 1 2 3 4 5 at 2 and 3 -/
def h0 : Heap Int Unit := [.dims [1], .slots [.atom 2], .dims [5], .slots [.atom 1, .atom 2, .atom 3, .atom 4, .atom 5]]

/-- the heap after `N↓R` -/
def dropped (h : Heap Int Unit) : Heap Int Unit :=
  match takedropH ic () 5 false (.atom 0) 0 1 (.arr (some ()) 2 3) [] h with
  | some (_, h') => h'
  | none => h

/-- the value of `N↓R` -/
def result (h : Heap Int Unit) : Option (Tree Int Unit) :=
  match takedropH ic () 5 false (.atom 0) 0 1 (.arr (some ()) 2 3) [] h with
  | some (.ok v, h') => treeOf h' 5 v
  | _ => none

/-- a vector of integers as a tree -/
def vec (l : List Int) : Tree Int Unit := .arr (some ()) [l.length] (l.map .atom)

/-- the hypotheses of `C07_drop_overwrites` are met -/
example : ∃ v h', takedropH ic () 5 false (.atom 0) 0 1 (.arr (some ()) 2 3) [] h0 = some (.ok v, h') := ⟨_, _, rfl⟩

/-- those of `C07_take_partial`: `N↑R` -/
example : ∃ v h', takedropH ic () 5 true (.atom 0) 0 1 (.arr (some ()) 2 3) [] h0 = some (.ok v, h') ∧
    treeOf h' 5 v = some (vec [1, 2]) ∧ rankOf h0 1 (.arr (some ()) 2 3 : HV Int Unit) = some 1 := ⟨_, _, rfl, rfl, rfl⟩

/-- those of `C07_short_left`: N is ,2 and R is a matrix with 2 rows and 2 columns -/
example : ∃ v h', takedropH ic () 5 true (.atom 0) 0 1 (.arr (some ()) 2 3) []
    [.dims [1], .slots [.atom 2], .dims [2, 2], .slots [.atom 1, .atom 2, .atom 3, .atom 4]] = some (.ok v, h') := ⟨_, _, rfl⟩

/-- those of `C07_transpose_increments`: `0 1⍉R` for a matrix R, with `⎕IO←0` -/
example : ∃ v h', transposeH ic 5 0 0 1 (⟨some (), 2, 3⟩ : ArrRef Unit)
    [.dims [2], .slots [.atom 0, .atom 1], .dims [2, 2], .slots [.atom 1, .atom 2, .atom 3, .atom 4]] = some (.ok v, h') := ⟨_, _, rfl⟩

end AliasDemo2

open AliasDemo2 in
/-- **C07.** `N←,2 ⋄ R←1 2 3 4 5 ⋄ N↓R` gives 3 4 5 and sets N to ¯3; evaluating `N↓R` again gives 1 2. -/
theorem C07_repeated :
    result h0 = some (vec [3, 4, 5]) ∧ treeOf (dropped h0) 5 (.arr (some ()) 0 1) = some (vec [-3]) ∧
    result (dropped h0) = some (vec [1, 2]) := ⟨rfl, rfl, rfl⟩

end Iv

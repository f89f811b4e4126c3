import Verif.Lemmas.AliasOwn
/-
C42: assignment copies; variables hold independent values.
-/
namespace Iv

variable {X A T : Type} [DecidableEq X] [DecidableEq A]

/-- The part of an assignment statement that is not the assignment itself changes nothing: the expression on the right only creates
new storage, and the modifying function, if there is one, does the same and returns no storage of others. -/
def Assign.Lawful (st : Assign X A T) (σ : Mem X A T) : Prop :=
  Expression st.rhs ∧ ∀ g, st.f = some g → PureFn σ.heap.length g ∧ OwnResult g

/-- The memories that arise from an empty one by executing assignments `X←R`, `X f←R`, `X[I]←R`, `X[I]f←R`, whether they
succeed or fail. -/
inductive Arises (et : ElemTypes A T) (origin : Int) : Mem X A T → Prop
  | start : Arises et origin ⟨fun _ => none, []⟩
  | step {σ σ' : Mem X A T} {st : Assign X A T} {n : Nat} {r : Except Fail Unit} :
      Arises et origin σ → st.Lawful σ → st.exec et n origin σ = some (r, σ') → Arises et origin σ'

/-- A sequence of assignments to the given variables. -/
inductive Assigns (et : ElemTypes A T) (origin : Int) : Mem X A T → List X → Mem X A T → Prop
  | none {σ : Mem X A T} : Assigns et origin σ [] σ
  | more {σ σ1 σ2 : Mem X A T} {st : Assign X A T} {xs : List X} {n : Nat} {r : Except Fail Unit} :
      st.Lawful σ → st.exec et n origin σ = some (r, σ1) → Assigns et origin σ1 xs σ2 → Assigns et origin σ (st.name :: xs) σ2

/-- No two variables use the same storage. -/
def Separate (σ : Mem X A T) : Prop :=
  HeapValid σ.heap ∧ (∀ x v, σ.vars x = some v → v.Valid σ.heap) ∧
    ∀ x y v w, x ≠ y → σ.vars x = some v → σ.vars y = some w → ∀ p, Uses σ.heap v p → ¬ Uses σ.heap w p

omit [DecidableEq A] in
theorem PureFn.mono {m m' : Nat} {f : ModFn A T} (hf : PureFn m f) (h : m ≤ m') : PureFn m' f :=
  fun l r h0 res h' e hm => hf l r h0 res h' e (Nat.le_trans h hm)

/-- what the new value of the variable is: owned by the region of the old one and new storage -/
theorem assignTo_safe {et : ElemTypes A T} {n : Nat} {origin : Int} {old : Option (HV A T)} {idx : Option (List Nat × List Int)}
    {f : Option (ModFn A T)} {r : HV A T} {h : Heap A T} (hf : ModOk h.length f) (hh : HeapValid h) (ho : ∀ w, old = some w → w.Valid h)
    (hr : r.Valid h) :
    Safe h (fun p => ∃ w, old = some w ∧ Uses h w p) (assignTo et n origin old idx f r) h
      (fun o h' => ∀ v, o = some v → AOwn h (fun p => ∃ w, old = some w ∧ Uses h w p) h' v) := by
  have hi : AInv h (fun p => ∃ w, old = some w ∧ Uses h w p) h := ⟨hh, Nat.le_refl _, fun _ _ _ => rfl⟩
  have hown : ∀ w, old = some w → AOwn h (fun p => ∃ w, old = some w ∧ Uses h w p) h w :=
    fun w hw => ⟨ho w hw, fun p hp => Or.inl ⟨w, hw, hp⟩⟩
  unfold assignTo
  split
  · exact (safe_copy hi n hr).bind (fun v h1 g1 hv => Safe.pure g1.1 (fun u hu => by cases hu; exact hv))
  · rename_i f w
    refine (safe_fn' (hf.pure f rfl) hi (l := some w) (fun y hy => by cases hy; exact ho w rfl) hr).bind (fun v h1 g1 hv => ?_)
    exact (safe_copy g1.1 n hv).bind (fun v h1 g1 hv => Safe.pure g1.1 (fun u hu => by cases hu; exact hv))
  · rename_i w
    refine (safe_assignPart hf hi (hown w rfl) hr).bind (fun o h1 g1 hv => ?_)
    split
    · exact Safe.pure g1.1 (fun u hu => by cases hu)
    · rename_i v
      exact (safe_copy g1.1 n (hv v rfl).1).bind (fun v h1 g1 hv => Safe.pure g1.1 (fun u hu => by cases hu; exact hv))
  · exact Safe.fail hi

theorem exec_inv {et : ElemTypes A T} {n : Nat} {origin : Int} {st : Assign X A T} {σ σ' : Mem X A T} {r : Except Fail Unit}
    (e : st.exec et n origin σ = some (r, σ')) :
    (∃ er, st.rhs σ.vars σ.heap = some (.error er, σ'.heap) ∧ σ'.vars = σ.vars ∧ r = .error er) ∨
    ∃ v h o, st.rhs σ.vars σ.heap = some (.ok v, h) ∧ assignTo et n origin (σ.vars st.name) st.idx st.f v h = some (o, σ'.heap) ∧
      σ'.vars = stored σ.vars st.name o ∧ r = o.map (fun _ => ()) := by
  unfold Assign.exec at e
  split at e
  · cases e
  · rename_i er h hr
    cases e
    exact Or.inl ⟨er, hr, rfl, rfl⟩
  · rename_i v h hr
    split at e
    · cases e
    · rename_i o h' ho
      cases e
      exact Or.inr ⟨v, h, o, hr, ho, rfl, rfl⟩

theorem stored_other {vars : X → Option (HV A T)} {x y : X} (hy : y ≠ x) (o : Except Fail (Option (HV A T))) : stored vars x o y = vars y := by
  unfold stored
  split
  · simp [setVar, hy]
  · rfl

/-- what an assignment has to guarantee about the heap: unchanged outside of the storage of the variable, and the new value uses only
that and new storage -/
def StepOk (σ : Mem X A T) (x : X) (h h' : Heap A T) (vars' : X → Option (HV A T)) : Prop :=
  AInv h (fun p => ∃ u, σ.vars x = some u ∧ Uses h u p) h' ∧ h.length ≤ h'.length ∧
    ∀ w, vars' x = some w → AOwn h (fun p => ∃ u, σ.vars x = some u ∧ Uses h u p) h' w

theorem exec_core {et : ElemTypes A T} {n : Nat} {origin : Int} {st : Assign X A T} (hrhs : Expression st.rhs) {σ σ' : Mem X A T}
    {r : Except Fail Unit} (hs : Separate σ) (e : st.exec et n origin σ = some (r, σ'))
    (hstep : ∀ v h o, σ.heap.length ≤ h.length → HeapValid h → (∀ y w, σ.vars y = some w → w.Valid h) → v.Valid h →
      assignTo et n origin (σ.vars st.name) st.idx st.f v h = some (o, σ'.heap) → r = o.map (fun _ => ()) →
      σ'.vars = stored σ.vars st.name o → StepOk σ st.name h σ'.heap σ'.vars) :
    Separate σ' ∧ ∀ y v, y ≠ st.name → σ.vars y = some v → σ'.vars y = some v ∧ ∀ p, Uses σ.heap v p → σ'.heap[p]? = σ.heap[p]? := by
  obtain ⟨hh, hval, hsep⟩ := hs
  rcases exec_inv e with ⟨er, e1, ev, _⟩ | ⟨v, h, o, e1, e2, ev, er⟩
  · obtain ⟨x, hh', _⟩ := hrhs _ _ _ _ e1 hh hval
    have x : Ext σ.heap σ'.heap := x
    refine ⟨⟨hh', fun y w hw => ?_, fun a b va vb hab ha hb p hp hp' => ?_⟩, fun y w _ hw => ⟨ev ▸ hw, fun p hp => ?_⟩⟩
    · rw [ev] at hw; exact (hval y w hw).mono x.length
    · rw [ev] at ha hb
      exact hsep a b va vb hab ha hb p ((uses_ext x hh (hval _ _ ha) p).1 hp) ((uses_ext x hh (hval _ _ hb) p).1 hp')
    · exact x.get (uses_valid hh hp (hval _ _ hw))
  · obtain ⟨x, hh1, hv⟩ := hrhs _ _ _ _ e1 hh hval
    have x : Ext σ.heap h := x
    have hval1 : ∀ y w, σ.vars y = some w → w.Valid h := fun y w hw => (hval y w hw).mono x.length
    obtain ⟨g1, g2, hnew⟩ := hstep v h o x.length hh1 hval1 (hv v rfl) e2 er ev
    -- the storage of another variable is not in the region
    have hout : ∀ y w, y ≠ st.name → σ.vars y = some w → ∀ p, Uses h w p → p < h.length ∧ ¬ ∃ u, σ.vars st.name = some u ∧ Uses h u p := by
      intro y w hy hw p hp
      refine ⟨uses_valid hh1 hp (hval1 y w hw), ?_⟩
      rintro ⟨u, hu, hup⟩
      exact hsep y st.name w u hy hw hu p ((uses_ext x hh (hval _ _ hw) p).1 hp) ((uses_ext x hh (hval _ _ hu) p).1 hup)
    have hag : ∀ y w, y ≠ st.name → σ.vars y = some w → ∀ p, Uses h w p → σ'.heap[p]? = h[p]? := fun y w hy hw p hp =>
      g1.2.2 p (hout y w hy hw p hp).1 (hout y w hy hw p hp).2
    have hoth : ∀ y, y ≠ st.name → σ'.vars y = σ.vars y := fun y hy => by rw [ev]; exact stored_other hy o
    -- disjointness of the assigned variable and another one
    have hdis : ∀ y w u, y ≠ st.name → σ'.vars y = some w → σ'.vars st.name = some u → ∀ p, Uses σ'.heap w p → ¬ Uses σ'.heap u p := by
      intro y w u hy hw hu p hp hup
      rw [hoth y hy] at hw
      have hp' := (uses_agree (hag y w hy hw) p).1 hp
      obtain ⟨a, b⟩ := hout y w hy hw p hp'
      rcases (hnew u hu).2 p hup with hin | hge
      · exact b hin
      · exact absurd a (Nat.not_lt.2 hge)
    refine ⟨⟨g1.1, fun y w hw => ?_, fun a b va vb hab ha hb p hp hp' => ?_⟩, fun y w hy hw => ⟨(hoth y hy).trans hw, fun p hp => ?_⟩⟩
    · by_cases hy : y = st.name
      · subst hy; exact (hnew w hw).1
      · rw [hoth y hy] at hw
        exact (hval1 y w hw).mono g2
    · by_cases hay : a = st.name
      · subst hay
        exact hdis b vb va (Ne.symm hab) hb ha p hp' hp
      · by_cases hby : b = st.name
        · subst hby
          exact hdis a va vb hab ha hb p hp hp'
        · rw [hoth a hay] at ha
          rw [hoth b hby] at hb
          have h1 := (uses_agree (hag a va hay ha) p).1 hp
          have h2 := (uses_agree (hag b vb hby hb) p).1 hp'
          exact hsep a b va vb hab ha hb p ((uses_ext x hh (hval _ _ ha) p).1 h1) ((uses_ext x hh (hval _ _ hb) p).1 h2)
    · rw [hag y w hy hw p ((uses_ext x hh (hval _ _ hw) p).2 hp), x.get (uses_valid hh hp (hval _ _ hw))]

/-- a safe assignment guarantees it -/
theorem stepOk_of_safe {σ : Mem X A T} {x : X} {h h' : Heap A T} {o : Except Fail (Option (HV A T))} {vars' : X → Option (HV A T)}
    (hval1 : ∀ y w, σ.vars y = some w → w.Valid h) (ev : vars' = stored σ.vars x o)
    (g : AGood h (fun p => ∃ u, σ.vars x = some u ∧ Uses h u p) h h')
    (q : ∀ v, o = .ok (some v) → AOwn h (fun p => ∃ u, σ.vars x = some u ∧ Uses h u p) h' v) : StepOk σ x h h' vars' := by
  refine ⟨g.1, g.2.1, fun w hw => ?_⟩
  rw [ev] at hw
  unfold stored at hw
  split at hw
  · rename_i u
    simp only [setVar, if_true] at hw
    cases hw
    exact q _ rfl
  · exact g.2.2 w ⟨hval1 _ _ hw, fun p hp => Or.inl ⟨w, hw, hp⟩⟩

/-- the heap part of an assignment: the storage of the other variables is as it was -/
theorem exec_step {et : ElemTypes A T} {n : Nat} {origin : Int} {st : Assign X A T} {σ σ' : Mem X A T} (hst : st.Lawful σ)
    {r : Except Fail Unit} (hs : Separate σ) (e : st.exec et n origin σ = some (r, σ')) :
    Separate σ' ∧ ∀ y v, y ≠ st.name → σ.vars y = some v → σ'.vars y = some v ∧ ∀ p, Uses σ.heap v p → σ'.heap[p]? = σ.heap[p]? := by
  refine exec_core hst.1 hs e (fun v h o hl hh1 hval1 hv e2 _ ev => ?_)
  obtain ⟨g, q⟩ := assignTo_safe (et := et) (n := n) (origin := origin) (idx := st.idx) (fun g hg => ⟨(hst.2 g hg).1.mono hl, (hst.2 g hg).2⟩) hh1 (hval1 st.name) hv _ _ e2
  exact stepOk_of_safe hval1 ev g (fun v hv => q _ hv _ rfl)

theorem arises_separate {et : ElemTypes A T} {origin : Int} {σ : Mem X A T} (h : Arises et origin σ) : Separate σ := by
  induction h with
  | start =>
    refine ⟨fun p o hp => ?_, fun x v hv => ?_, fun x y v w _ hv => ?_⟩
    · simp at hp
    · cases hv
    · cases hv
  | step _ hst e ih => exact (exec_step hst ih e).1

theorem holds_of_step {et : ElemTypes A T} {n : Nat} {origin : Int} {st : Assign X A T} {σ σ' : Mem X A T}
    {r : Except Fail Unit} (e : st.exec et n origin σ = some (r, σ'))
    (h : ∀ y v, y ≠ st.name → σ.vars y = some v → σ'.vars y = some v ∧ ∀ p, Uses σ.heap v p → σ'.heap[p]? = σ.heap[p]?)
    {y : X} (hy : y ≠ st.name) (t : Tree A T) : σ'.Holds y t ↔ σ.Holds y t := by
  have hvars : σ'.vars y = σ.vars y := by
    rcases exec_inv e with ⟨er, _, ev, _⟩ | ⟨v, h, o, _, _, ev, _⟩
    · rw [ev]
    · rw [ev]; exact stored_other hy o
  constructor
  · rintro ⟨v, hv, m, hm⟩
    rw [hvars] at hv
    exact ⟨v, hv, m, (tree_agree m v (h y v hy hv).2).symm.trans hm⟩
  · rintro ⟨v, hv, m, hm⟩
    exact ⟨v, hvars.trans hv, m, (tree_agree m v (h y v hy hv).2).trans hm⟩

theorem holds_iff {et : ElemTypes A T} {n : Nat} {origin : Int} {st : Assign X A T} {σ σ' : Mem X A T} (hst : st.Lawful σ)
    {r : Except Fail Unit} (hs : Separate σ) (e : st.exec et n origin σ = some (r, σ')) {y : X} (hy : y ≠ st.name) (t : Tree A T) :
    σ'.Holds y t ↔ σ.Holds y t :=
  holds_of_step e (exec_step hst hs e).2 hy t

/-- **C42.** In every memory that arises from assignments, an assignment `X←R`, `X f←R`, `X[I]←R` or `X[I]f←R`, whether it succeeds or
fails half-way, leaves the value of every other variable as it was. -/
theorem C42_other_variables (et : ElemTypes A T) (origin : Int) (n : Nat) (st : Assign X A T) (σ σ' : Mem X A T) (r : Except Fail Unit)
    (hσ : Arises et origin σ) (hst : st.Lawful σ) (e : st.exec et n origin σ = some (r, σ')) (y : X) (hy : y ≠ st.name) (t : Tree A T) :
    σ'.Holds y t ↔ σ.Holds y t :=
  holds_iff hst (arises_separate hσ) e hy t

/-- the result of a plain assignment -/
theorem plain_holds {et : ElemTypes A T} {n : Nat} {origin : Int} {st : Assign X A T} (hi : st.idx = none) (hf : st.f = none)
    {σ σ' : Mem X A T} (hst : st.Lawful σ) {r : Except Fail Unit} (hs : Separate σ) (e : st.exec et n origin σ = some (r, σ')) {v : HV A T} {h : Heap A T}
    (e1 : st.rhs σ.vars σ.heap = some (.ok v, h)) {t : Tree A T} (ht : Denotes h v t) (hr : r = .ok ()) : σ'.Holds st.name t := by
  obtain ⟨x, hh1, hv⟩ := hst.1 _ _ _ _ e1 hs.1 hs.2.1
  rcases exec_inv e with ⟨er, e2, _⟩ | ⟨v', h', o, e2, e3, ev, er⟩
  · rw [e1] at e2; cases e2
  · rw [e1] at e2
    cases e2
    unfold assignTo at e3
    rw [hi, hf] at e3
    simp only [hm_bind, hm_pure] at e3
    rcases e3 with ⟨x', _, rfl⟩ | ⟨w, h2, e3, rfl, e4⟩
    · rw [hr] at er; cases er
    · obtain ⟨_, _, c⟩ := copyV_copies n _ _ _ _ e3 hh1 (hv v rfl)
      obtain ⟨m, hm⟩ := ht
      rw [← e4] at c
      refine ⟨w, by rw [ev]; simp [stored, setVar], m, ?_⟩
      rw [(c w rfl).2.2 m]
      exact hm

/-- **C42.** After a successful `X←R` the variable X holds the value of R, whatever storage that value was using. -/
theorem C42_assigned (et : ElemTypes A T) (origin : Int) (n : Nat) (st : Assign X A T) (σ σ' : Mem X A T) (v : HV A T) (h : Heap A T)
    (t : Tree A T) (hσ : Arises et origin σ) (hst : st.Lawful σ) (hi : st.idx = none) (hf : st.f = none)
    (hr : st.rhs σ.vars σ.heap = some (.ok v, h)) (ht : Denotes h v t) (e : st.exec et n origin σ = some (.ok (), σ')) :
    σ'.Holds st.name t :=
  plain_holds hi hf hst (arises_separate hσ) e hr ht rfl

theorem assigns_holds {et : ElemTypes A T} {origin : Int} {σ σ' : Mem X A T} {xs : List X} (hs : Separate σ)
    (hr : Assigns et origin σ xs σ') {y : X} (hy : y ∉ xs) (t : Tree A T) : σ'.Holds y t ↔ σ.Holds y t := by
  induction hr with
  | none => exact Iff.rfl
  | more hst e _ ih =>
    rw [List.mem_cons, not_or] at hy
    exact (ih (exec_step hst hs e).1 hy.2).trans (holds_iff hst hs e hy.1 t)

/-- the value of a variable, or an error -/
def valueOr : Option (HV A T) → HM A T (HV A T)
  | some v => pure v
  | none => failH .err

/-- the expression `Y` (apl/var.go:173-179): the value the variable holds, not a copy; an undefined variable is an error -/
def readVar (y : X) : (X → Option (HV A T)) → HM A T (HV A T) := fun vars => valueOr (vars y)

omit [DecidableEq X] [DecidableEq A] in
theorem readVar_expression (y : X) : Expression (readVar (A := A) (T := T) y) := by
  intro vars h r h' e hh hv
  unfold readVar at e
  cases hy : vars y with
  | some v =>
    rw [hy, valueOr, hm_pure] at e
    obtain ⟨rfl, rfl⟩ := e
    exact ⟨⟨[], by simp⟩, hh, fun w hw => by cases hw; exact hv y _ hy⟩
  | none =>
    rw [hy, valueOr, hm_fail] at e
    obtain ⟨rfl, rfl⟩ := e
    exact ⟨⟨[], by simp⟩, hh, fun w hw => by cases hw⟩

/-- **C42.** After `X←Y`, any sequence of assignments, plain, modified or indexed, successful or not, that are not to X leaves X with
the value Y had; and any sequence of assignments that are not to Y leaves Y with that value. -/
theorem C42_independent (et : ElemTypes A T) (origin : Int) (n : Nat) (x y : X) (hxy : x ≠ y) (σ σ1 : Mem X A T) (t : Tree A T)
    (hσ : Arises et origin σ) (ht : σ.Holds y t) (e : (⟨x, none, none, readVar y⟩ : Assign X A T).exec et n origin σ = some (.ok (), σ1)) :
    σ1.Holds x t ∧ σ1.Holds y t ∧
    (∀ xs σ2, Assigns et origin σ1 xs σ2 → x ∉ xs → σ2.Holds x t) ∧
    (∀ xs σ2, Assigns et origin σ1 xs σ2 → y ∉ xs → σ2.Holds y t) := by
  have hst : (⟨x, none, none, readVar y⟩ : Assign X A T).Lawful σ := ⟨readVar_expression y, fun g hg => by cases hg⟩
  have hs := arises_separate hσ
  have hs1 := (exec_step hst hs e).1
  obtain ⟨v, hv, hd⟩ := ht
  have hx : σ1.Holds x t := plain_holds (st := ⟨x, none, none, readVar y⟩) rfl rfl hst hs e (v := v) (h := σ.heap)
    (by show readVar y σ.vars σ.heap = _; unfold readVar; rw [hv]; rfl) hd rfl
  have hy : σ1.Holds y t := (holds_iff hst hs e (Ne.symm hxy) t).2 ⟨v, hv, hd⟩
  exact ⟨hx, hy, fun xs σ2 hr hn => (assigns_holds hs1 hr hn t).2 hx, fun xs σ2 hr hn => (assigns_holds hs1 hr hn t).2 hy⟩

/-! ## A plain assignment ends -/

omit [DecidableEq A] in
theorem copyAll_ends {c : HV A T → HM A T (HV A T)} (hc : Copies c) (h0 : Heap A T) (hh0 : HeapValid h0)
    (he : ∀ v h, HeapValid h → Ext h0 h → v.Valid h0 → (∃ t, treeOf h0 n v = some t) → ∃ w h', c v h = some (.ok w, h')) :
    ∀ (l : List (HV A T)) (h : Heap A T), HeapValid h → Ext h0 h → (∀ v, v ∈ l → v.Valid h0) →
      (∀ v, v ∈ l → ∃ t, treeOf h0 n v = some t) → ∃ ws h', copyAll c l h = some (.ok ws, h')
  | [], h, _, _, _, _ => ⟨[], h, rfl⟩
  | v :: l, h, hh, x, hv, ht => by
    have hv0 := hv v (List.mem_cons_self ..)
    obtain ⟨w, h1, e1⟩ := he v h hh x hv0 (ht v (List.mem_cons_self ..))
    obtain ⟨x1, hh1, _⟩ := hc h v _ _ e1 hh (hv0.mono x.length)
    obtain ⟨ws, h2, e2⟩ := copyAll_ends hc h0 hh0 he l h1 hh1 (x.trans x1) (fun u hu => hv u (List.mem_cons_of_mem _ hu))
      (fun u hu => ht u (List.mem_cons_of_mem _ hu))
    refine ⟨w :: ws, h2, ?_⟩
    rw [copyAll, hm_bind]
    refine Or.inr ⟨w, h1, e1, ?_⟩
    rw [hm_bind]
    exact Or.inr ⟨ws, h2, e2, rfl⟩

omit [DecidableEq A] in
theorem copyMap_ends {c : HV A T → HM A T (HV A T)} (hc : Copies c) (h0 : Heap A T) (hh0 : HeapValid h0)
    (he : ∀ v h, HeapValid h → Ext h0 h → v.Valid h0 → (∃ t, treeOf h0 n v = some t) → ∃ w h', c v h = some (.ok w, h')) :
    ∀ (l : List (A × HV A T)) (h : Heap A T), HeapValid h → Ext h0 h → (∀ e, e ∈ l → e.2.Valid h0) →
      (∀ e, e ∈ l → ∃ t, treeOf h0 n e.2 = some t) → ∃ ws h', copyMap c l h = some (.ok ws, h')
  | [], h, _, _, _, _ => ⟨[], h, rfl⟩
  | (k, v) :: l, h, hh, x, hv, ht => by
    have hv0 := hv (k, v) (List.mem_cons_self ..)
    obtain ⟨w, h1, e1⟩ := he v h hh x hv0 (ht (k, v) (List.mem_cons_self ..))
    obtain ⟨x1, hh1, _⟩ := hc h v _ _ e1 hh (hv0.mono x.length)
    obtain ⟨ws, h2, e2⟩ := copyMap_ends hc h0 hh0 he l h1 hh1 (x.trans x1) (fun u hu => hv u (List.mem_cons_of_mem _ hu))
      (fun u hu => ht u (List.mem_cons_of_mem _ hu))
    refine ⟨(k, w) :: ws, h2, ?_⟩
    rw [copyMap, hm_bind]
    refine Or.inr ⟨w, h1, e1, ?_⟩
    rw [hm_bind]
    exact Or.inr ⟨ws, h2, e2, rfl⟩

theorem mapM_opt_mem {α β : Type} {f : α → Option β} : ∀ {l : List α} {m : List β}, l.mapM f = some m → ∀ a, a ∈ l → ∃ b, f a = some b
  | [], _, _, _, h => by cases h
  | x :: l, m, e, a, h => by
    rw [List.mapM_cons] at e
    simp only [Option.bind_eq_bind, Option.bind_eq_some_iff] at e
    obtain ⟨y, e1, ys, e2, _⟩ := e
    rcases List.mem_cons.1 h with rfl | h
    · exact ⟨y, e1⟩
    · exact mapM_opt_mem e2 a h

omit [DecidableEq A] in
/-- copying a value that denotes a tree ends, with the depth of the tree as recursion depth -/
theorem copyV_ends (h0 : Heap A T) (hh0 : HeapValid h0) : ∀ (n : Nat) (v : HV A T) (h : Heap A T), HeapValid h → Ext h0 h → v.Valid h0 →
    (∃ t, treeOf h0 n v = some t) → ∃ w h', copyV n v h = some (.ok w, h')
  | 0, v, h, _, _, _, ⟨t, ht⟩ => by cases v <;> cases ht
  | n + 1, .atom a, h, _, _, _, _ => ⟨_, _, rfl⟩
  | n + 1, .empty, h, _, _, _, _ => ⟨_, _, rfl⟩
  | n + 1, .arr ty d p, h, hh, x, hv, ⟨t, ht⟩ => by
    rw [treeOf] at ht
    simp only [Option.bind_eq_bind, Option.bind_eq_some_iff] at ht
    obtain ⟨s, es, l, el, ts, et, _⟩ := ht
    have es := dimsAt_some.1 es
    have el := slotsAt_some.1 el
    have hd : d < h0.length := hv d (by simp [HV.addrs])
    have hp : p < h0.length := hv p (by simp [HV.addrs])
    have x1 := alloc_ext h (Obj.dims s : Obj A T)
    have hh1 : HeapValid (h ++ [(Obj.dims s : Obj A T)]) := alloc_valid hh (fun w hw => by cases hw)
    obtain ⟨ws, h2, e2⟩ := copyAll_ends (copyV_copies n) h0 hh0 (copyV_ends h0 hh0 n) l _ hh1 (x.trans x1) (hh0 p _ el)
      (mapM_opt_mem et)
    refine ⟨.arr ty h.length h2.length, h2 ++ [.slots ws], ?_⟩
    simp only [copyV, hm_bind, hm_getDims, hm_getSlots, hm_alloc, hm_pure]
    refine Or.inr ⟨s, h, ⟨(asDims_ok.2 (by rw [x.get hd]; exact es)).symm, rfl⟩, Or.inr ⟨h.length, _, ⟨rfl, rfl⟩, Or.inr ⟨l, _, ⟨?_, rfl⟩,
      Or.inr ⟨ws, h2, e2, Or.inr ⟨h2.length, _, ⟨rfl, rfl⟩, rfl, rfl⟩⟩⟩⟩⟩
    exact (asSlots_ok.2 (by rw [(x.trans x1).get hp]; exact el)).symm
  | n + 1, .list p, h, hh, x, hv, ⟨t, ht⟩ => by
    rw [treeOf] at ht
    simp only [Option.bind_eq_bind, Option.bind_eq_some_iff] at ht
    obtain ⟨l, el, ts, et, _⟩ := ht
    have el := slotsAt_some.1 el
    have hp : p < h0.length := hv p (by simp [HV.addrs])
    obtain ⟨ws, h2, e2⟩ := copyAll_ends (copyV_copies n) h0 hh0 (copyV_ends h0 hh0 n) l _ hh x (hh0 p _ el) (mapM_opt_mem et)
    refine ⟨.list h2.length, h2 ++ [.slots ws], ?_⟩
    simp only [copyV, hm_bind, hm_getSlots, hm_alloc, hm_pure]
    exact Or.inr ⟨l, h, ⟨(asSlots_ok.2 (by rw [x.get hp]; exact el)).symm, rfl⟩, Or.inr ⟨ws, h2, e2, Or.inr ⟨h2.length, _, ⟨rfl, rfl⟩, rfl, rfl⟩⟩⟩
  | n + 1, .dict p, h, hh, x, hv, ⟨t, ht⟩ => by
    rw [treeOf] at ht
    simp only [Option.bind_eq_bind, Option.bind_eq_some_iff] at ht
    obtain ⟨km, el, ts, et, _⟩ := ht
    have el := dictAt_some.1 el
    have hp : p < h0.length := hv p (by simp [HV.addrs])
    obtain ⟨ws, h2, e2⟩ := copyMap_ends (copyV_copies n) h0 hh0 (copyV_ends h0 hh0 n) km.2 _ hh x
      (fun e he => hh0 p _ el _ (List.mem_map.2 ⟨e, he, rfl⟩)) (fun e he => by
        obtain ⟨b, hb⟩ := mapM_opt_mem et e he
        cases ht : treeOf h0 n e.2 with
        | none => rw [ht] at hb; cases hb
        | some t => exact ⟨t, rfl⟩)
    refine ⟨.dict h2.length, h2 ++ [.dict km.1 ws], ?_⟩
    simp only [copyV, hm_bind, hm_getDict, hm_alloc, hm_pure]
    exact Or.inr ⟨km, h, ⟨(asDict_ok.2 (by rw [x.get hp]; exact el)).symm, rfl⟩, Or.inr ⟨ws, h2, e2, Or.inr ⟨h2.length, _, ⟨rfl, rfl⟩, rfl, rfl⟩⟩⟩
  | n + 1, .table p rows, h, hh, x, hv, ⟨t, ht⟩ => by
    rw [treeOf] at ht
    simp only [Option.bind_eq_bind, Option.bind_eq_some_iff] at ht
    obtain ⟨km, el, ts, et, _⟩ := ht
    have el := dictAt_some.1 el
    have hp : p < h0.length := hv p (by simp [HV.addrs])
    obtain ⟨ws, h2, e2⟩ := copyMap_ends (copyV_copies n) h0 hh0 (copyV_ends h0 hh0 n) km.2 _ hh x
      (fun e he => hh0 p _ el _ (List.mem_map.2 ⟨e, he, rfl⟩)) (fun e he => by
        obtain ⟨b, hb⟩ := mapM_opt_mem et e he
        cases ht : treeOf h0 n e.2 with
        | none => rw [ht] at hb; cases hb
        | some t => exact ⟨t, rfl⟩)
    refine ⟨.table h2.length rows, h2 ++ [.dict km.1 ws], ?_⟩
    simp only [copyV, hm_bind, hm_getDict, hm_alloc, hm_pure]
    exact Or.inr ⟨km, h, ⟨(asDict_ok.2 (by rw [x.get hp]; exact el)).symm, rfl⟩, Or.inr ⟨ws, h2, e2, Or.inr ⟨h2.length, _, ⟨rfl, rfl⟩, rfl, rfl⟩⟩⟩

/-- **C42.** `X←Y` succeeds if Y holds a value. -/
theorem C42_assign_ends (et : ElemTypes A T) (origin : Int) (x y : X) (σ : Mem X A T) (t : Tree A T) (hσ : Arises et origin σ)
    (ht : σ.Holds y t) : ∃ n σ', (⟨x, none, none, readVar y⟩ : Assign X A T).exec et n origin σ = some (.ok (), σ') := by
  obtain ⟨v, hv, n, hn⟩ := ht
  have hs := arises_separate hσ
  obtain ⟨w, h', e⟩ := copyV_ends σ.heap hs.1 n v σ.heap hs.1 (Ext.refl _) (hs.2.1 y v hv) ⟨t, hn⟩
  refine ⟨n, ⟨setVar σ.vars x w, h'⟩, ?_⟩
  have e1 : readVar y σ.vars σ.heap = some (.ok v, σ.heap) := by unfold readVar; rw [hv]; rfl
  have e2 : assignTo et n origin (σ.vars x) none none v σ.heap = some (.ok (some w), h') := by
    unfold assignTo
    rw [hm_bind]
    exact Or.inr ⟨w, h', e, rfl⟩
  unfold Assign.exec
  simp only [e1, e2]
  rfl

end Iv

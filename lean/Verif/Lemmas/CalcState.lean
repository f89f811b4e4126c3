import Verif.Lemmas.CalcPrim
import Verif.Props.EvalOrder
import Verif.Props.Calls
/-
C92: the states of the interpreter and the scopes of the specification.
-/
namespace Iv
variable {D H : Type}

/-- The loop of the lookup depends only on the environments up to `e`. -/
theorem findEnv_congr {envs envs' : List (Env D)} {y : String}
    (hp : ∀ (i : Nat) (en : Env D) (p : Nat), envs[i]? = some en → en.parent = some p → p < i) :
    ∀ (fuel fuel' e : Nat), e < fuel → e < fuel' →
    (∀ i : Nat, i ≤ e → (envs[i]?).map (fun en => (en.parent, mapGet en.vars y)) = (envs'[i]?).map (fun en => (en.parent, mapGet en.vars y))) →
    findEnv envs y fuel e = findEnv envs' y fuel' e ∧
      ∀ e', findEnv envs y fuel e = some e' → envGet envs e' y = envGet envs' e' y := by
  intro fuel
  induction fuel with
  | zero => intro fuel' e h; omega
  | succ fuel ih =>
    intro fuel' e h h' hv
    cases fuel' with
    | zero => omega
    | succ fuel' =>
      have h0 := hv e (Nat.le_refl _)
      unfold findEnv
      cases he : envs[e]? with
      | none =>
        rw [he] at h0
        cases he' : envs'[e]? with
        | none => simp
        | some en' => rw [he'] at h0; simp at h0
      | some en =>
        rw [he] at h0
        cases he' : envs'[e]? with
        | none => rw [he'] at h0; simp at h0
        | some en' =>
          rw [he'] at h0
          simp only [Option.map_some, Option.some.injEq, Prod.mk.injEq] at h0
          simp only
          rw [← h0.1, ← h0.2]
          cases hm : mapGet en.vars y with
          | some x =>
            refine ⟨rfl, ?_⟩
            intro e' h
            simp only [Option.some.injEq] at h
            subst h
            unfold envGet
            rw [he, he']
            simp only
            rw [← h0.2]
          | none =>
            simp only
            cases hpar : en.parent with
            | none => simp
            | some p =>
              simp only
              have hlt := hp e en p he hpar
              exact ih fuel' p (by omega) (by omega) (fun i hi => hv i (by omega))

/-- The value of a name depends only on what the current environment and the older ones hold under that name. -/
theorem lookup_congr (sys : Sys D H) {s s' : St D H} {y : String} (ho : Ordinary y) (w : WF s) (w' : WF s') (hc : s'.cur = s.cur)
    (hv : ∀ i : Nat, i ≤ s.cur → (s.envs[i]?).map (fun en => (en.parent, mapGet en.vars y)) =
      (s'.envs[i]?).map (fun en => (en.parent, mapGet en.vars y))) :
    (lookupEnv sys s' y).1 = (lookupEnv sys s y).1 := by
  rw [lookupEnv_ordinary sys s y ho, lookupEnv_ordinary sys s' y ho, hc]
  have hw := w.cur
  have hw' := w'.cur
  rw [hc] at hw'
  obtain ⟨h1, h2⟩ := findEnv_congr (envs' := s'.envs) w.parent s.envs.length s'.envs.length s.cur hw hw' hv
  rw [← h1]
  cases hf : findEnv s.envs y s.envs.length s.cur with
  | none => rfl
  | some e => exact (h2 e hf).symm

/-- a name that the current environment has -/
theorem lookup_here (sys : Sys D H) {s : St D H} {y : String} (ho : Ordinary y) (w : WF s) {en : Env D} {x : Option (IVal D)}
    (he : s.envs[s.cur]? = some en) (hx : mapGet en.vars y = some x) : (lookupEnv sys s y).1 = x := by
  rw [C44_lookup sys s w y ho s.cur (.here _ ⟨en, he, by rw [hx]; rfl⟩)]
  simp only [slot, he, Option.bind_some, hx]
  rfl

/-- The state after the evaluation of a term: there may be more environments. -/
structure Later (s s' : St D H) : Prop where
  cur : s'.cur = s.cur
  origin : s'.origin = s.origin
  pp : s'.pp = s.pp
  out : s'.out = s.out
  heap : s'.heap = s.heap
  wf : WF s'
  len : s.envs.length ≤ s'.envs.length
  envs : ∀ i : Nat, i < s.envs.length → s'.envs[i]? = s.envs[i]?

/-- The state after statements: the current environment may have changed. -/
structure Moved (s s' : St D H) : Prop where
  cur : s'.cur = s.cur
  origin : s'.origin = s.origin
  pp : s'.pp = s.pp
  out : s'.out = s.out
  heap : s'.heap = s.heap
  wf : WF s'
  len : s.envs.length ≤ s'.envs.length
  envs : ∀ i : Nat, i < s.envs.length → i ≠ s.cur → s'.envs[i]? = s.envs[i]?

theorem Later.refl {s : St D H} (w : WF s) : Later s s := ⟨rfl, rfl, rfl, rfl, rfl, w, Nat.le_refl _, fun _ _ => rfl⟩

theorem Later.trans {a b c : St D H} (h : Later a b) (k : Later b c) : Later a c where
  cur := k.cur.trans h.cur
  origin := k.origin.trans h.origin
  pp := k.pp.trans h.pp
  out := k.out.trans h.out
  heap := k.heap.trans h.heap
  wf := k.wf
  len := Nat.le_trans h.len k.len
  envs i hi := (k.envs i (Nat.lt_of_lt_of_le hi h.len)).trans (h.envs i hi)

theorem Later.moved {a b : St D H} (h : Later a b) : Moved a b :=
  ⟨h.cur, h.origin, h.pp, h.out, h.heap, h.wf, h.len, fun i hi _ => h.envs i hi⟩

theorem Moved.trans {a b c : St D H} (h : Moved a b) (k : Moved b c) : Moved a c where
  cur := k.cur.trans h.cur
  origin := k.origin.trans h.origin
  pp := k.pp.trans h.pp
  out := k.out.trans h.out
  heap := k.heap.trans h.heap
  wf := k.wf
  len := Nat.le_trans h.len k.len
  envs i hi hc := (k.envs i (Nat.lt_of_lt_of_le hi h.len) (by rw [h.cur]; exact hc)).trans (h.envs i hi hc)

theorem lookup_later (sys : Sys D H) {s s' : St D H} (h : Later s s') (w : WF s) {y : String} (ho : Ordinary y) :
    (lookupEnv sys s' y).1 = (lookupEnv sys s y).1 := by
  refine lookup_congr sys ho w h.wf h.cur (fun i hi => ?_)
  rw [h.envs i (by have := w.cur; omega)]

/-- after a call -/
theorem later_of_enter {s s1 : St D H} {body l r} (w : WF s) (h : Moved (enter s body l r) s1) : Later s { s1 with cur := s.cur } where
  cur := rfl
  origin := h.origin
  pp := h.pp
  out := h.out
  heap := h.heap
  wf := ⟨by
      have h1 := h.len
      have h2 := w.cur
      have h3 : (enter s body l r).envs.length = s.envs.length + 1 := by simp [enter]
      show s.cur < s1.envs.length
      omega, h.wf.parent⟩
  len := by
    have h1 := h.len
    have h3 : (enter s body l r).envs.length = s.envs.length + 1 := by simp [enter]
    show s.envs.length ≤ s1.envs.length
    omega
  envs i hi := by
    have h3 : (enter s body l r).envs.length = s.envs.length + 1 := by simp [enter]
    have := h.envs i (by omega) (by show i ≠ s.envs.length; omega)
    show s1.envs[i]? = _
    rw [this]
    show (s.envs ++ _)[i]? = _
    rw [List.getElem?_append_left hi]

theorem wf_enter {s : St D H} (w : WF s) (body l r) : WF (enter s body l r) := wf_frame s w _

/-- A name in the environment of a call that is none of its own is the one of the caller. -/
theorem lookup_enter (sys : Sys D H) {s : St D H} (w : WF s) (body l r) {y : String} (ho : Ordinary y) (h1 : y ≠ "∇") (h2 : y ≠ "⍺") (h3 : y ≠ "⍵") :
    (lookupEnv sys (enter s body l r) y).1 = (lookupEnv sys s y).1 := by
  have we := wf_enter w body l r
  rw [lookupEnv_ordinary sys s y ho, lookupEnv_ordinary sys _ y ho]
  have hl : (enter s body l r).envs.length = s.envs.length + 1 := by simp [enter]
  have hc : (enter s body l r).cur = s.envs.length := rfl
  have hg : (enter s body l r).envs[s.envs.length]? = some ⟨some s.cur, [("∇", some (.fn (.lam (some body)))), ("⍺", l), ("⍵", some r)]⟩ := by
    simp [enter]
  have hm : mapGet ([("∇", some (.fn (.lam (some body)))), ("⍺", l), ("⍵", some r)] : Vars D) y = none := by
    simp [mapGet, Ne.symm h1, Ne.symm h2, Ne.symm h3]
  have hstep : findEnv (enter s body l r).envs y (s.envs.length + 1) s.envs.length = findEnv (enter s body l r).envs y s.envs.length s.cur := by
    rw [findEnv, hg]
    simp only [hm]
  rw [hl, hc, hstep]
  have hw := w.cur
  obtain ⟨e1, e2⟩ := findEnv_congr (envs' := (enter s body l r).envs) (y := y) w.parent s.envs.length s.envs.length s.cur hw hw (by
    intro i hi
    have : (enter s body l r).envs[i]? = s.envs[i]? := by
      show (s.envs ++ _)[i]? = _
      rw [List.getElem?_append_left (by omega)]
    rw [this])
  rw [← e1]
  cases hf : findEnv s.envs y s.envs.length s.cur with
  | none => rfl
  | some e => exact (e2 e hf).symm

theorem lookup_left (sys : Sys D H) {s : St D H} (w : WF s) (body l r) : (lookupEnv sys (enter s body l r) "⍺").1 = l :=
  lookup_here sys (by unfold Ordinary; decide) (wf_enter w body l r)
    (en := ⟨some s.cur, [("∇", some (.fn (.lam (some body)))), ("⍺", l), ("⍵", some r)]⟩) (by simp [enter]) (by simp [mapGet])

theorem lookup_right (sys : Sys D H) {s : St D H} (w : WF s) (body l r) : (lookupEnv sys (enter s body l r) "⍵").1 = some r :=
  lookup_here sys (by unfold Ordinary; decide) (wf_enter w body l r)
    (en := ⟨some s.cur, [("∇", some (.fn (.lam (some body)))), ("⍺", l), ("⍵", some r)]⟩) (by simp [enter]) (by simp [mapGet])

/-- the state after an assignment in the current environment -/
def bindVar (s : St D H) (x : String) (v : IVal D) : St D H := { s with envs := putVar s.envs s.cur x (some v) }

theorem wf_bindVar {s : St D H} (w : WF s) (x v) : WF (bindVar s x v) := (Keeps.putVar s s.cur x (some v) (.inl rfl)).wf w

theorem moved_bindVar {s : St D H} (w : WF s) (x v) : Moved s (bindVar s x v) where
  cur := rfl
  origin := rfl
  pp := rfl
  out := rfl
  heap := rfl
  wf := wf_bindVar w x v
  len := by simp [bindVar, putVar_length]
  envs i hi hc := by
    simp only [bindVar, putVar_get, hc, if_false]
    cases s.envs[i]? <;> rfl

theorem lookup_bind_same (sys : Sys D H) {s : St D H} (w : WF s) {x : String} (ho : Ordinary x) (v) :
    (lookupEnv sys (bindVar s x v) x).1 = some v := by
  have hlt := w.cur
  have hg : s.envs[s.cur]? = some s.envs[s.cur] := List.getElem?_eq_getElem hlt
  refine lookup_here sys ho (wf_bindVar w x v) (en := { s.envs[s.cur] with vars := mapSet s.envs[s.cur].vars x (some v) }) ?_ ?_
  · simp only [bindVar, putVar_get, hg, Option.map_some, if_true]
  · simp [mapGet_set_name]

theorem lookup_bind_other (sys : Sys D H) {s : St D H} (w : WF s) {x y : String} (ho : Ordinary y) (hy : y ≠ x) (v) :
    (lookupEnv sys (bindVar s x v) y).1 = (lookupEnv sys s y).1 := by
  refine lookup_congr sys ho w (wf_bindVar w x v) rfl (fun i hi => ?_)
  simp only [bindVar, putVar_get]
  cases hi' : s.envs[i]? with
  | none => rfl
  | some en =>
    simp only [Option.map_some]
    split
    · simp only [mapGet_set_name]
      rw [if_neg (fun h => hy h.symm)]
    · rfl

end Iv

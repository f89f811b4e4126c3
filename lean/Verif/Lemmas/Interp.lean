import Verif.Model.Interp
/-
Invariants of the evaluator.
-/
namespace Iv
variable {D H : Type}

/-! ### The evaluation monad -/

theorem em_pure {α} (a : α) (s : St D H) : (pure a : EM D H α) s = some (.ok a, s) := rfl

theorem em_bind {α β} (m : EM D H α) (f : α → EM D H β) (s : St D H) :
    (m >>= f) s = match m s with
      | none => none
      | some (.error e, s') => some (.error e, s')
      | some (.ok a, s') => f a s' := rfl

theorem em_bind_some {α β} {m : EM D H α} {f : α → EM D H β} {s : St D H} {r s'} (h : (m >>= f) s = some (r, s')) :
    (∃ a s1, m s = some (.ok a, s1) ∧ f a s1 = some (r, s')) ∨ (∃ e, m s = some (.error e, s') ∧ r = .error e) := by
  rw [em_bind] at h
  split at h
  · simp at h
  · rename_i e s1 he
    simp only [Option.some.injEq, Prod.mk.injEq] at h
    exact .inr ⟨e, by rw [he, h.2], h.1.symm⟩
  · rename_i a s1 he
    exact .inl ⟨a, s1, he, h⟩

/-- `m` relates the states before and after -/
def Pres {α} (R : St D H → St D H → Prop) (m : EM D H α) : Prop := ∀ s r s', m s = some (r, s') → R s s'

section
variable {R : St D H → St D H → Prop} {α β : Type}

theorem Pres.pure (hr : ∀ s, R s s) (a : α) : Pres R (pure a : EM D H α) := by
  intro s r s' h
  simp only [em_pure, Option.some.injEq, Prod.mk.injEq] at h
  rw [← h.2]; exact hr s

theorem Pres.fail (hr : ∀ s, R s s) (e : Fail) : Pres R (fail e : EM D H α) := by
  intro s r s' h
  simp only [Iv.fail, Option.some.injEq, Prod.mk.injEq] at h
  rw [← h.2]; exact hr s

theorem Pres.noFuel : Pres R (noFuel : EM D H α) := by
  intro s r s' h; simp [Iv.noFuel] at h

theorem Pres.getSt (hr : ∀ s, R s s) : Pres R (getSt : EM D H (St D H)) := by
  intro s r s' h
  simp only [Iv.getSt, Option.some.injEq, Prod.mk.injEq] at h
  rw [← h.2]; exact hr s

theorem Pres.bind (ht : ∀ a b c, R a b → R b c → R a c) {m : EM D H α} {f : α → EM D H β} (hm : Pres R m)
    (hf : ∀ a, Pres R (f a)) : Pres R (m >>= f) := by
  intro s r s' h
  rcases em_bind_some h with ⟨a, s1, h1, h2⟩ | ⟨e, h1, _⟩
  · exact ht _ _ _ (hm _ _ _ h1) (hf a _ _ _ h2)
  · exact hm _ _ _ h1

theorem Pres.try {m : EM D H α} (hm : Pres R m) : Pres R (tryEM m) := by
  intro s r s' h
  simp only [tryEM] at h
  split at h
  · simp at h
  · rename_i x s1 he
    simp only [Option.some.injEq, Prod.mk.injEq] at h
    rw [← h.2]; exact hm _ _ _ he

theorem Pres.resume (hr : ∀ s, R s s) (ht : ∀ a b c, R a b → R b c → R a c) {m : EM D H α} {k : Except Fail α → EM D H β}
    (hm : Pres R m) (hk : ∀ x, Pres R (k x)) : Pres R (resume m k) := by
  refine Pres.bind ht hm.try (fun r => ?_)
  split
  · exact Pres.fail hr _
  · exact hk _

theorem Pres.runAct (hr : ∀ s, R s s) (ht : ∀ a b c, R a b → R b c → R a c)
    (hout : ∀ (s : St D H) o, R s { s with out := o }) (hheap : ∀ (s : St D H) h, R s { s with heap := h })
    (hnew : ∀ (vars : Vars D) (m : EM D H (IVal D)), Pres R m → Pres R (inNewEnv vars m))
    {rec : Rec D H} (hrec : ∀ j, Pres R (rec j)) (p : Act D H α) : Pres R (runAct rec p) := by
  induction p with
  | ret r =>
    cases r with
    | ok v => exact Pres.pure hr _
    | error e => exact Pres.fail hr _
  | call f l r k ih => exact Pres.resume hr ht (hrec _) ih
  | exec e k ih => exact Pres.resume hr ht (hrec _) ih
  | envCall f l r vars k ih => exact Pres.resume hr ht (hnew _ _ (hrec _)) ih
  | print v k ih => intro s r s' h; exact ht _ _ _ (hout s _) (ih _ _ _ h)
  | origin k ih => intro s r s' h; exact ih _ _ _ _ h
  | getH k ih => intro s r s' h; exact ih _ _ _ _ h
  | setH h' k ih => intro s r s' h; exact ht _ _ _ (hheap s _) (ih _ _ _ h)
end

/-! ### The relation between the states before and after an evaluation -/

/-- the environment `e` has the name -/
def Binds (envs : List (Env D)) (e : Nat) (name : String) : Prop :=
  ∃ en, envs[e]? = some en ∧ (mapGet en.vars name).isSome

/-- parents are older than their children, and the current environment exists -/
structure WF (s : St D H) : Prop where
  cur : s.cur < s.envs.length
  parent : ∀ (i : Nat) (en : Env D) (p : Nat), s.envs[i]? = some en → en.parent = some p → p < i

/-- What every evaluation keeps: the current environment, the parents of all environments, the names of all environments but
the current one, which may get new names. -/
structure Keeps (s s' : St D H) : Prop where
  cur : s'.cur = s.cur
  len : s.envs.length ≤ s'.envs.length
  parent : ∀ i, i < s.envs.length → (s'.envs[i]?).map Env.parent = (s.envs[i]?).map Env.parent
  names : ∀ i n, i < s.envs.length → Binds s.envs i n → Binds s'.envs i n
  fixed : ∀ i n, i < s.envs.length → i ≠ s.cur → Binds s'.envs i n → Binds s.envs i n
  wf : WF s → WF s'

theorem Keeps.refl (s : St D H) : Keeps s s :=
  ⟨rfl, Nat.le_refl _, fun _ _ => rfl, fun _ _ _ h => h, fun _ _ _ _ h => h, id⟩

theorem Keeps.trans (a b c : St D H) (h1 : Keeps a b) (h2 : Keeps b c) : Keeps a c where
  cur := h2.cur.trans h1.cur
  len := Nat.le_trans h1.len h2.len
  parent i hi := (h2.parent i (Nat.lt_of_lt_of_le hi h1.len)).trans (h1.parent i hi)
  names i n hi h := h2.names i n (Nat.lt_of_lt_of_le hi h1.len) (h1.names i n hi h)
  fixed i n hi hc h := h1.fixed i n hi hc (h2.fixed i n (Nat.lt_of_lt_of_le hi h1.len) (by rw [h1.cur]; exact hc) h)
  wf h := h2.wf (h1.wf h)

/-- a change of the other parts of the state -/
theorem Keeps.of_same (s s' : St D H) (h1 : s'.envs = s.envs) (h2 : s'.cur = s.cur) : Keeps s s' where
  cur := h2
  len := by rw [h1]; exact Nat.le_refl _
  parent i _ := by rw [h1]
  names i n _ h := by rw [h1]; exact h
  fixed i n _ _ h := by rw [h1] at h; exact h
  wf h := ⟨by rw [h1, h2]; exact h.cur, by rw [h1]; exact h.parent⟩

theorem mapGet_set_name {V : Type} (m : List (String × V)) (k k' : String) (v : V) :
    mapGet (mapSet m k v) k' = if k = k' then some v else mapGet m k' := by
  induction m with
  | nil => simp [mapSet, mapGet]
  | cons p m ih =>
    obtain ⟨a, b⟩ := p
    by_cases h : a = k
    · subst h; by_cases h2 : a = k' <;> simp [mapSet, mapGet, h2]
    · by_cases h2 : a = k'
      · subst h2
        have : ¬ k = a := fun e => h e.symm
        simp [mapSet, mapGet, h, this]
      · simp [mapSet, mapGet, h, h2, ih]

theorem putVar_length (envs : List (Env D)) (e : Nat) (n : String) (v) : (putVar envs e n v).length = envs.length := by
  unfold putVar; split <;> simp

theorem putVar_get (envs : List (Env D)) (e i : Nat) (n : String) (v) :
    (putVar envs e n v)[i]? =
      (envs[i]?).map (fun en => if i = e then { en with vars := mapSet en.vars n v } else en) := by
  unfold putVar
  cases he : envs[e]? with
  | none =>
    dsimp only
    by_cases hi : i = e
    · subst hi; rw [he]; rfl
    · cases envs[i]? <;> simp [hi]
  | some en =>
    dsimp only
    rw [List.getElem?_set]
    by_cases hi : e = i
    · subst hi
      obtain ⟨hlt, hv⟩ := List.getElem?_eq_some_iff.mp he
      simp [hlt, hv]
    · have hi' : ¬ i = e := fun h => hi h.symm
      simp only [hi, if_false, hi']
      cases envs[i]? <;> rfl

theorem binds_putVar (envs : List (Env D)) (e i : Nat) (n n' : String) (v) :
    Binds (putVar envs e n v) i n' ↔ Binds envs i n' ∨ (i = e ∧ n = n' ∧ i < envs.length) := by
  unfold Binds
  rw [putVar_get]
  constructor
  · rintro ⟨en, h, hb⟩
    cases hi : envs[i]? with
    | none => rw [hi] at h; simp at h
    | some en0 =>
      rw [hi] at h
      simp only [Option.map_some, Option.some.injEq] at h
      subst h
      by_cases hie : i = e
      · simp only [hie, if_true, mapGet_set_name] at hb
        by_cases hn : n = n'
        · exact .inr ⟨hie, hn, (List.getElem?_eq_some_iff.mp hi).1⟩
        · rw [if_neg hn] at hb; exact .inl ⟨en0, rfl, hb⟩
      · rw [if_neg hie] at hb; exact .inl ⟨en0, rfl, hb⟩
  · rintro (⟨en, h, hb⟩ | ⟨h1, h2, h3⟩)
    · rw [h]
      refine ⟨_, rfl, ?_⟩
      split
      · simp only [mapGet_set_name]; split
        · rfl
        · exact hb
      · exact hb
    · have : envs[i]? = some envs[i] := List.getElem?_eq_getElem h3
      rw [this]
      refine ⟨_, rfl, ?_⟩
      simp [h1, h2, mapGet_set_name]

/-- writing a variable that exists, or in the current environment -/
theorem Keeps.putVar (s : St D H) (e : Nat) (n : String) (v) (h : e = s.cur ∨ Binds s.envs e n) :
    Keeps s { s with envs := putVar s.envs e n v } where
  cur := rfl
  len := by simp [putVar_length]
  parent i hi := by
    simp only [putVar_get]
    cases s.envs[i]? with
    | none => rfl
    | some en => simp only [Option.map_some]; split <;> rfl
  names i m hi hb := (binds_putVar ..).mpr (.inl hb)
  fixed i m hi hc hb := by
    rcases (binds_putVar ..).mp hb with hb | ⟨h1, h2, h3⟩
    · exact hb
    · rcases h with h | h
      · exact absurd (h1.trans h) hc
      · subst h1 h2; exact h
  wf w := by
    refine ⟨by simp only [putVar_length]; exact w.cur, ?_⟩
    intro i en p h hp
    simp only [putVar_get] at h
    cases hi : s.envs[i]? with
    | none => rw [hi] at h; simp at h
    | some en0 =>
      rw [hi] at h
      simp only [Option.map_some, Option.some.injEq] at h
      refine w.parent i en0 p hi ?_
      rw [← hp, ← h]; split <;> rfl

/-- A call in a new environment keeps the names of all environments. -/
theorem keeps_frame (vars : Vars D) (s s1 : St D H)
    (k : Keeps { s with envs := s.envs ++ [⟨some s.cur, vars⟩], cur := s.envs.length } s1) :
    Keeps s { s1 with cur := s.cur } ∧ (∀ i n, i < s.envs.length → (Binds s1.envs i n ↔ Binds s.envs i n)) := by
  have get : ∀ i, i < s.envs.length → (s.envs ++ [(⟨some s.cur, vars⟩ : Env D)])[i]? = s.envs[i]? := by
    intro i hi; rw [List.getElem?_append_left hi]
  have hl : ∀ {i}, i < s.envs.length → i < (s.envs ++ [(⟨some s.cur, vars⟩ : Env D)]).length := by
    intro i hi; simp; omega
  have b0 : ∀ i n, i < s.envs.length → (Binds (s.envs ++ [(⟨some s.cur, vars⟩ : Env D)]) i n ↔ Binds s.envs i n) := by
    intro i n hi; unfold Binds; rw [get i hi]
  refine ⟨⟨rfl, ?_, ?_, ?_, ?_, ?_⟩, ?_⟩
  · have := k.len; simp at this; dsimp only; omega
  · intro i hi; have := k.parent i (hl hi); rw [this]; simp only; rw [get i hi]
  · intro i n hi hb; exact k.names i n (hl hi) ((b0 i n hi).mpr hb)
  · intro i n hi _ hb
    exact (b0 i n hi).mp (k.fixed i n (hl hi) (by simp only; omega) hb)
  · intro w
    have w1 : WF { s with envs := s.envs ++ [(⟨some s.cur, vars⟩ : Env D)], cur := s.envs.length } := by
      refine ⟨by simp, ?_⟩
      intro i en p h hp
      simp only at h
      by_cases hi : i < s.envs.length
      · rw [get i hi] at h; exact w.parent i en p h hp
      · rw [List.getElem?_append_right (by omega)] at h
        have hi2 : i - s.envs.length = 0 := by
          rcases Nat.eq_zero_or_pos (i - s.envs.length) with h0 | h0
          · exact h0
          · rw [List.getElem?_eq_none (by simp; omega)] at h; simp at h
        rw [hi2] at h
        simp only [List.getElem?_cons_zero, Option.some.injEq] at h
        rw [← h] at hp
        simp only [Option.some.injEq] at hp
        have := w.cur; omega
    have w2 := k.wf w1
    refine ⟨?_, w2.parent⟩
    have := w.cur; have := k.len; simp at this; simp only; omega
  · intro i n hi
    constructor
    · intro hb; exact (b0 i n hi).mp (k.fixed i n (hl hi) (by simp only; omega) hb)
    · intro hb; exact k.names i n (hl hi) ((b0 i n hi).mpr hb)

/-- `e` is one of the environments in the chain of parents that starts at the first one -/
inductive OnChain (envs : List (Env D)) : Nat → Nat → Prop
  | here (e : Nat) : OnChain envs e e
  | up (e p e' : Nat) (en : Env D) : envs[e]? = some en → en.parent = some p → OnChain envs p e' → OnChain envs e e'

/-- How the state may change during an evaluation: other parts than the environments change; a name is bound in the current
environment; an existing binding in the chain of environments gets a new value; a function runs in a new environment whose parent
is the current one, after which the current environment is the same as before. -/
inductive Evolves : St D H → St D H → Prop
  | refl (s) : Evolves s s
  | trans (a b c) : Evolves a b → Evolves b c → Evolves a c
  | other (s s' : St D H) : s'.envs = s.envs → s'.cur = s.cur → Evolves s s'
  | bind (s : St D H) (n v) : Evolves s { s with envs := putVar s.envs s.cur n v }
  | update (s : St D H) (e n v) : OnChain s.envs s.cur e → Binds s.envs e n →
      Evolves s { s with envs := putVar s.envs e n v }
  | frame (s s' : St D H) (vars) :
      Evolves { s with envs := s.envs ++ [⟨some s.cur, vars⟩], cur := s.envs.length } s' → Evolves s { s' with cur := s.cur }

theorem Evolves.keeps {s s' : St D H} (h : Evolves s s') : Keeps s s' := by
  induction h with
  | refl s => exact Keeps.refl s
  | trans a b c _ _ h1 h2 => exact Keeps.trans a b c h1 h2
  | other s s' h1 h2 => exact Keeps.of_same s s' h1 h2
  | bind s n v => exact Keeps.putVar s _ n v (.inl rfl)
  | update s e n v _ hb => exact Keeps.putVar s e n v (.inr hb)
  | frame s s' vars _ h => exact (keeps_frame vars s s' h).1

theorem onChain_keeps {s s' : St D H} (k : Keeps s s') {i e : Nat} (h : OnChain s.envs i e) :
    OnChain s'.envs i e := by
  induction h with
  | here e => exact .here e
  | up i p e en hg hp hc ih =>
    have hi : i < s.envs.length := (List.getElem?_eq_some_iff.mp hg).1
    have h2 := k.parent i hi
    rw [hg] at h2
    cases hs : s'.envs[i]? with
    | none => rw [hs] at h2; simp at h2
    | some en' =>
      rw [hs] at h2
      simp only [Option.map_some, Option.some.injEq] at h2
      exact .up i p e en' hs (h2.trans hp) ih

theorem onChain_back {s s' : St D H} (k : Keeps s s') (w : WF s) {i e : Nat} (h : OnChain s'.envs i e) (hi : i < s.envs.length) :
    OnChain s.envs i e := by
  induction h with
  | here e => exact .here e
  | up i p e en hg hp hc ih =>
    have h2 := k.parent i hi
    rw [hg] at h2
    cases hs : s.envs[i]? with
    | none => rw [hs] at h2; simp at h2
    | some en' =>
      rw [hs] at h2
      simp only [Option.map_some, Option.some.injEq] at h2
      have hp' : en'.parent = some p := h2.symm.trans hp
      have := w.parent i en' p hs hp'
      exact .up i p e en' hs hp' (ih (by omega))

theorem wf_frame (s : St D H) (w : WF s) (vars : Vars D) :
    WF { s with envs := s.envs ++ [(⟨some s.cur, vars⟩ : Env D)], cur := s.envs.length } := by
  refine ⟨by simp, ?_⟩
  intro i en p h hp
  simp only at h
  by_cases hi : i < s.envs.length
  · rw [List.getElem?_append_left hi] at h; exact w.parent i en p h hp
  · rw [List.getElem?_append_right (by omega)] at h
    have hi2 : i - s.envs.length = 0 := by
      rcases Nat.eq_zero_or_pos (i - s.envs.length) with h0 | h0
      · exact h0
      · rw [List.getElem?_eq_none (by simp; omega)] at h; simp at h
    rw [hi2] at h
    simp only [List.getElem?_cons_zero, Option.some.injEq] at h
    rw [← h] at hp
    simp only [Option.some.injEq] at hp
    have := w.cur; omega

/-- Environments outside the chain of the current one are never changed. -/
theorem evolves_unreachable {s s' : St D H} (h : Evolves s s') (w : WF s) (i : Nat) (hi : i < s.envs.length)
    (hn : ¬ OnChain s.envs s.cur i) : s'.envs[i]? = s.envs[i]? := by
  induction h with
  | refl s => rfl
  | trans a b c h1 h2 ih1 ih2 =>
    rw [ih2 (h1.keeps.wf w) (Nat.lt_of_lt_of_le hi h1.keeps.len) ?_, ih1 w hi hn]
    intro hc
    rw [h1.keeps.cur] at hc
    exact hn (onChain_back h1.keeps w hc w.cur)
  | other s s' h1 h2 => rw [h1]
  | bind s n v =>
    rw [putVar_get]
    have : ¬ i = s.cur := fun h => hn (h ▸ .here _)
    cases s.envs[i]? <;> simp [this]
  | update s e n v hc hb =>
    rw [putVar_get]
    have : ¬ i = e := fun h => hn (h ▸ hc)
    cases s.envs[i]? <;> simp [this]
  | frame s s' vars h ih =>
    have := ih (wf_frame s w vars) (by simp; omega) ?_
    · simp only at this ⊢
      rw [this, List.getElem?_append_left hi]
    · intro hc
      simp only at hc
      have K := (keeps_frame vars s _ (Keeps.refl _)).1
      cases hc with
      | here => omega
      | up _ p _ en hg hp hc =>
        rw [List.getElem?_append_right (Nat.le_refl _)] at hg
        simp only [Nat.sub_self, List.getElem?_cons_zero, Option.some.injEq] at hg
        rw [← hg] at hp
        simp only [Option.some.injEq] at hp
        rw [← hp] at hc
        exact hn (onChain_back K w hc w.cur)

theorem evolves_assignEnv (sys : Sys D H) (name : String) (v : IVal D) (env : Option Nat) (s : St D H) (r s')
    (h : assignEnv sys name v env s = some (r, s'))
    (he : ∀ e, env = some e → OnChain s.envs s.cur e ∧ Binds s.envs e name) : Evolves s s' := by
  unfold assignEnv at h
  split at h
  · simp only [Option.some.injEq, Prod.mk.injEq] at h; rw [← h.2]; exact Evolves.refl s
  split at h
  · simp only [Option.some.injEq, Prod.mk.injEq] at h; rw [← h.2]; exact Evolves.refl s
  split at h
  · simp only [Option.some.injEq, Prod.mk.injEq] at h; rw [← h.2]; exact Evolves.other _ _ rfl rfl
  split at h
  · split at h <;> (simp only [Option.some.injEq, Prod.mk.injEq] at h; rw [← h.2]; exact Evolves.other _ _ rfl rfl)
  split at h
  · split at h <;> (simp only [Option.some.injEq, Prod.mk.injEq] at h; rw [← h.2]; exact Evolves.other _ _ rfl rfl)
  split at h
  · simp only [Option.some.injEq, Prod.mk.injEq] at h; rw [← h.2]; exact Evolves.refl s
  split at h
  · simp only [Option.some.injEq, Prod.mk.injEq] at h; rw [← h.2]; exact Evolves.refl s
  dsimp only at h
  split at h
  · simp only [Option.some.injEq, Prod.mk.injEq] at h; rw [← h.2]; exact Evolves.refl s
  · simp only [Option.some.injEq, Prod.mk.injEq] at h; rw [← h.2]
    cases env with
    | none => exact Evolves.bind s name (some v)
    | some e => exact Evolves.update s e name (some v) (he e rfl).1 (he e rfl).2

theorem findEnv_binds (envs : List (Env D)) (name : String) (fuel e e' : Nat) (h : findEnv envs name fuel e = some e') :
    Binds envs e' name := by
  induction fuel generalizing e with
  | zero => simp [findEnv] at h
  | succ n ih =>
    unfold findEnv at h
    split at h
    · simp at h
    · rename_i en he
      split at h
      · rename_i v hv
        simp only [Option.some.injEq] at h
        subst h
        exact ⟨en, he, by rw [hv]; rfl⟩
      · split at h
        · simp at h
        · exact ih _ h

theorem lookupEnv_binds (sys : Sys D H) (s : St D H) (name : String) (v e) (h : lookupEnv sys s name = (v, some e)) :
    Binds s.envs e name := by
  unfold lookupEnv at h
  split at h
  · simp at h
  split at h
  · simp at h
  split at h
  · simp at h
  split at h
  · simp at h
  · rename_i e' he
    simp only [Prod.mk.injEq, Option.some.injEq] at h
    rw [← h.2]
    exact findEnv_binds _ _ _ _ _ he

theorem findEnv_onChain (envs : List (Env D)) (name : String) (fuel e e' : Nat) (h : findEnv envs name fuel e = some e') :
    OnChain envs e e' := by
  induction fuel generalizing e with
  | zero => simp [findEnv] at h
  | succ n ih =>
    unfold findEnv at h
    split at h
    · simp at h
    · rename_i en he
      split at h
      · simp only [Option.some.injEq] at h
        subst h
        exact .here _
      · split at h
        · simp at h
        · rename_i p hp
          exact .up _ p _ en he hp (ih _ h)

theorem lookupEnv_onChain (sys : Sys D H) (s : St D H) (name : String) (v e) (h : lookupEnv sys s name = (v, some e)) :
    OnChain s.envs s.cur e := by
  unfold lookupEnv at h
  split at h
  · simp at h
  split at h
  · simp at h
  split at h
  · simp at h
  split at h
  · simp at h
  · rename_i e' he
    simp only [Prod.mk.injEq, Option.some.injEq] at h
    rw [← h.2]
    exact findEnv_onChain _ _ _ _ _ he

theorem binds_keeps {s s' : St D H} (k : Keeps s s') {e n} (h : Binds s.envs e n) : Binds s'.envs e n := by
  refine k.names e n ?_ h
  obtain ⟨en, he, _⟩ := h
  exact (List.getElem?_eq_some_iff.mp he).1

theorem found_evolves {s s' : St D H} (k : Evolves s s') {e n} (h : OnChain s.envs s.cur e ∧ Binds s.envs e n) :
    OnChain s'.envs s'.cur e ∧ Binds s'.envs e n :=
  ⟨by rw [k.keeps.cur]; exact onChain_keeps k.keeps h.1, binds_keeps k.keeps h.2⟩

theorem evolves_inNewEnv {α} (vars : Vars D) (m : EM D H α) (hm : Pres Evolves m) : Pres Evolves (inNewEnv vars m) := by
  intro s r s' h
  unfold inNewEnv at h
  split at h
  · simp at h
  · rename_i r1 s1 he
    simp only [Option.some.injEq, Prod.mk.injEq] at h
    obtain ⟨_, rfl⟩ := h
    exact Evolves.frame s s1 vars (hm _ _ _ he)

section
variable {rec : Rec D H} (hrec : ∀ j, Pres Evolves (rec j))
include hrec

theorem evolves_runAct {α} (p : Act D H α) : Pres Evolves (runAct rec p) :=
  Pres.runAct Evolves.refl Evolves.trans (fun s _ => Evolves.other s _ rfl rfl) (fun s _ => Evolves.other s _ rfl rfl)
    (fun vars m hm => evolves_inNewEnv vars m hm) hrec p

theorem evolves_evalAll (es : List (Expr D)) : Pres Evolves (evalAll rec es) := by
  induction es with
  | nil => exact Pres.pure Evolves.refl _
  | cons e es ih =>
    exact Pres.bind Evolves.trans (hrec _) (fun v => Pres.bind Evolves.trans ih (fun vs => Pres.pure Evolves.refl _))

theorem evolves_evalScalars (sys : Sys D H) (es : List (Expr D)) : Pres Evolves (evalScalars sys rec es) := by
  induction es with
  | nil => exact Pres.pure Evolves.refl _
  | cons e es ih =>
    refine Pres.bind Evolves.trans (hrec _) (fun v => ?_)
    split
    · split
      · exact Pres.bind Evolves.trans ih (fun vs => Pres.pure Evolves.refl _)
      · exact Pres.fail Evolves.refl _
    · exact Pres.fail Evolves.refl _

theorem evolves_dispatch {α} (use : Handler D H → Option (IVal D) → IVal D → Act D H α) (l r) (hs : List (Handler D H)) :
    Pres Evolves (dispatch use rec l r hs) := by
  induction hs with
  | nil => exact Pres.fail Evolves.refl _
  | cons h hs ih =>
    unfold dispatch
    split
    · exact evolves_runAct hrec _
    · exact ih

theorem evolves_dispatchOp {α} (use : OpHandler D H → IVal D → Option (IVal D) → Act D H α) (l r) (hs : List (OpHandler D H)) :
    Pres Evolves (dispatchOp use rec l r hs) := by
  induction hs with
  | nil => exact Pres.fail Evolves.refl _
  | cons h hs ih =>
    unfold dispatchOp
    split
    · exact evolves_runAct hrec _
    · exact ih

theorem evolves_evalOpd (e : Option (Expr D)) : Pres Evolves (evalOpd rec e) := by
  cases e
  · exact Pres.fail Evolves.refl _
  · exact hrec _

theorem evolves_optOpd (b : Bool) (e : Option (Expr D)) :
    Pres Evolves ((if b then do let v ← evalOpd rec e; return some v else pure none) : EM D H (Option (IVal D))) := by
  cases b
  · exact Pres.pure Evolves.refl _
  · exact Pres.bind Evolves.trans (evolves_evalOpd hrec e) (fun _ => Pres.pure Evolves.refl _)

theorem evolves_selectStep (sys : Sys D H) (f l r) : Pres Evolves (selectStep sys rec f l r) := by
  unfold selectStep
  split
  · split
    · exact Pres.fail Evolves.refl _
    · split
      · exact Pres.fail Evolves.refl _
      · refine Pres.bind Evolves.trans (evolves_evalOpd hrec _) (fun LO => Pres.bind Evolves.trans ?_ (fun RO => ?_))
        · exact evolves_optOpd hrec _ _
        · exact evolves_dispatchOp hrec _ _ _ _
  · split
    · exact Pres.fail Evolves.refl _
    · exact evolves_dispatch hrec _ _ _ _
  · exact Pres.fail Evolves.refl _

theorem evolves_evalTarget (e : Expr D) : Pres Evolves (evalTarget rec e) := by
  unfold evalTarget
  split
  · exact Pres.pure Evolves.refl _
  · split
    · exact Pres.pure Evolves.refl _
    · exact Pres.fail Evolves.refl _
  · split
    · exact Pres.fail Evolves.refl _
    · exact Pres.pure Evolves.refl _
    · exact Pres.bind Evolves.trans (hrec _) (fun _ => Pres.pure Evolves.refl _)

theorem evolves_assignVal (sys : Sys D H) (w idx f r) : Pres Evolves (assignVal sys rec w idx f r) := by
  unfold assignVal
  split
  · exact evolves_runAct hrec _
  · split
    · exact Pres.fail Evolves.refl _
    · exact Pres.bind Evolves.trans (hrec _) (fun _ => Pres.pure Evolves.refl _)

theorem evolves_assignBack (sys : Sys D H) (name env v) (s : St D H) (x s') (h : assignBack sys rec name env v s = some (x, s'))
    (he : ∀ e, env = some e → OnChain s.envs s.cur e ∧ Binds s.envs e name) : Evolves s s' := by
  unfold assignBack at h
  split at h
  · exact Pres.pure Evolves.refl _ _ _ _ h
  · rcases em_bind_some h with ⟨v', s3, h5, h6⟩ | ⟨e, h5, _⟩
    · have k2 := evolves_runAct hrec _ _ _ _ h5
      refine Evolves.trans _ _ _ k2 (evolves_assignEnv sys name v' env s3 x s' h6 ?_)
      intro e h0
      exact found_evolves k2 (he e h0)
    · exact evolves_runAct hrec _ _ _ _ h5

theorem evolves_assignFound (sys : Sys D H) (name idx f r) : Pres Evolves (assignFound sys rec name idx f r) := by
  intro s x s' h
  unfold assignFound at h
  rcases em_bind_some h with ⟨s0, s1, h1, h2⟩ | ⟨e, h1, _⟩
  · simp only [getSt, Option.some.injEq, Prod.mk.injEq, Except.ok.injEq] at h1
    obtain ⟨rfl, rfl⟩ := h1
    obtain ⟨w, env, hw⟩ : ∃ w env, lookupEnv sys s name = (w, env) := ⟨_, _, rfl⟩
    rw [hw] at h2
    cases w with
    | none => exact Pres.fail Evolves.refl _ _ _ _ h2
    | some w =>
      rcases em_bind_some h2 with ⟨v, s2, h3, h4⟩ | ⟨e, h3, _⟩
      · have k1 := evolves_assignVal hrec sys _ _ _ _ _ _ _ h3
        refine Evolves.trans _ _ _ k1 (evolves_assignBack hrec sys _ _ _ _ _ _ h4 ?_)
        intro e he
        subst he
        exact found_evolves k1 ⟨lookupEnv_onChain sys _ _ _ _ hw, lookupEnv_binds sys _ _ _ _ hw⟩
      · exact evolves_assignVal hrec sys _ _ _ _ _ _ _ h3
  · simp [getSt] at h1

theorem evolves_assignScalar (sys : Sys D H) (name idx f r) : Pres Evolves (assignScalar sys rec name idx f r) := by
  unfold assignScalar
  split
  · refine Pres.bind Evolves.trans (evolves_runAct hrec _) (fun v => ?_)
    intro s r s' h
    exact evolves_assignEnv sys name v none s r s' h (by simp)
  · exact evolves_assignFound hrec sys _ _ _ _

theorem evolves_assignNames (sys : Sys D H) (f) (l : List (String × IVal D)) : Pres Evolves (assignNames sys rec f l) := by
  induction l with
  | nil => exact Pres.pure Evolves.refl _
  | cons p l ih => exact Pres.bind Evolves.trans (evolves_assignScalar hrec sys _ _ _ _) (fun _ => ih)

theorem evolves_assignVector (sys : Sys D H) (names f r) : Pres Evolves (assignVector sys rec names f r) := by
  unfold assignVector
  refine Pres.bind Evolves.trans (evolves_runAct hrec _) (fun vs => ?_)
  split
  · exact Pres.bind Evolves.trans (evolves_assignNames hrec sys _ _) (fun _ => Pres.pure Evolves.refl _)
  · split
    · exact Pres.bind Evolves.trans (Pres.fail Evolves.refl _) (fun _ => Pres.pure Evolves.refl _)
    · exact Pres.bind Evolves.trans (evolves_assignNames hrec sys _ _) (fun _ => Pres.pure Evolves.refl _)

theorem evolves_assignStep (sys : Sys D H) (t f r) : Pres Evolves (assignStep sys rec t f r) := by
  unfold assignStep
  split
  · exact evolves_assignVector hrec sys _ _ _
  · exact Pres.bind Evolves.trans (evolves_assignScalar hrec sys _ _ _ _) (fun _ => Pres.pure Evolves.refl _)

theorem evolves_derivedStep (sys : Sys D H) (op lo ro l r) : Pres Evolves (derivedStep sys rec op lo ro l r) := by
  unfold derivedStep
  have A : ∀ e f, Pres Evolves (do let t ← evalTarget rec e; assignStep sys rec t f r : EM D H (IVal D)) :=
    fun e f => Pres.bind Evolves.trans (evolves_evalTarget hrec e) (fun t => evolves_assignStep hrec sys t f r)
  split
  · split
    · split
      · exact Pres.fail Evolves.refl _
      · exact A _ _
    · split
      · exact A _ _
      · exact A _ _
      · exact Pres.fail Evolves.refl _
    · exact Pres.fail Evolves.refl _
  · split
    · exact Pres.fail Evolves.refl _
    · exact Pres.bind Evolves.trans (evolves_optOpd hrec _ _) (fun _ => Pres.bind Evolves.trans (evolves_evalOpd hrec _)
        (fun _ => evolves_dispatchOp hrec _ _ _ _))

theorem evolves_forkCall (f g h l r) : Pres Evolves (forkRun rec f g h l r) := by
  unfold forkRun
  split
  · refine Pres.bind Evolves.trans ?_ (fun x => Pres.bind Evolves.trans (hrec _) (fun y => hrec _))
    split
    · exact hrec _
    · exact Pres.pure Evolves.refl _
  · exact Pres.fail Evolves.refl _

theorem evolves_atopCall (g h l r) : Pres Evolves (atopRun rec g h l r) := by
  unfold atopRun
  split
  · exact Pres.bind Evolves.trans (hrec _) (fun y => hrec _)
  · exact Pres.fail Evolves.refl _

theorem evolves_trainStep (es l r) : Pres Evolves (trainStep rec es l r) := by
  unfold trainStep
  split
  · exact Pres.fail Evolves.refl _
  · exact Pres.fail Evolves.refl _
  · exact Pres.bind Evolves.trans (hrec _) (fun _ => Pres.bind Evolves.trans (hrec _) (fun _ => evolves_atopCall hrec _ _ _ _))
  · exact Pres.bind Evolves.trans (hrec _) (fun _ => Pres.bind Evolves.trans (hrec _) (fun _ =>
      Pres.bind Evolves.trans (hrec _) (fun _ => evolves_forkCall hrec _ _ _ _ _)))
  · split
    · exact Pres.bind Evolves.trans (hrec _) (fun _ => evolves_atopCall hrec _ _ _ _)
    · exact Pres.bind Evolves.trans (hrec _) (fun _ => Pres.bind Evolves.trans (hrec _) (fun _ => evolves_forkCall hrec _ _ _ _ _))

theorem evolves_guardEval (sys : Sys D H) (g) : Pres Evolves (guardEval sys rec g) := by
  unfold guardEval
  split
  · exact Pres.bind Evolves.trans (evolves_evalOpd hrec _) (fun _ => Pres.pure Evolves.refl _)
  · refine Pres.bind Evolves.trans (hrec _) (fun v => ?_)
    split
    · exact Pres.fail Evolves.refl _
    · exact Pres.pure Evolves.refl _
    · exact Pres.bind Evolves.trans (evolves_evalOpd hrec _) (fun _ => Pres.pure Evolves.refl _)

theorem evolves_guardLoop (sys : Sys D H) (gs ret) : Pres Evolves (guardLoop sys rec gs ret) := by
  induction gs generalizing ret with
  | nil => exact Pres.pure Evolves.refl _
  | cons g gs ih =>
    unfold guardLoop
    dsimp only
    split
    · exact Pres.fail Evolves.refl _
    · split
      · exact Pres.pure Evolves.refl _
      · refine Pres.bind Evolves.trans (evolves_guardEval hrec sys g) (fun v => ?_)
        split
        · exact ih _
        · split
          · exact ih _
          · exact Pres.pure Evolves.refl _

theorem evolves_loopStep (sys : Sys D H) (body l r) : Pres Evolves (loopStep sys rec body l r) := by
  unfold loopStep
  refine Pres.bind Evolves.trans ?_ (fun _ => Pres.bind Evolves.trans (evolves_guardLoop hrec sys _ _) (fun v => ?_))
  · intro s x s' h
    simp only [modSt, Option.some.injEq, Prod.mk.injEq] at h
    rw [← h.2]
    have k1 := Evolves.bind s "⍺" l
    exact Evolves.trans _ _ _ k1 (Evolves.bind { s with envs := putVar s.envs s.cur "⍺" l } "⍵" (some r))
  · split
    · exact Pres.pure Evolves.refl _
    · refine Pres.bind Evolves.trans (hrec _) (fun r' => Pres.bind Evolves.trans ?_ (fun l' => hrec _))
      split
      · exact Pres.pure Evolves.refl _
      · exact Pres.bind Evolves.trans (hrec _) (fun _ => Pres.pure Evolves.refl _)

theorem evolves_callStep (sys : Sys D H) (f l r) : Pres Evolves (callStep sys rec f l r) := by
  unfold callStep
  split
  · split
    · exact Pres.fail Evolves.refl _
    · exact evolves_dispatch hrec _ _ _ _
  · refine Pres.bind Evolves.trans (Pres.getSt Evolves.refl) (fun s => ?_)
    split
    · exact Pres.pure Evolves.refl _
    · exact hrec _
    · exact Pres.fail Evolves.refl _
  · exact Pres.pure Evolves.refl _
  · exact evolves_inNewEnv _ _ (hrec _)
  · refine Pres.bind Evolves.trans (Pres.getSt Evolves.refl) (fun s => ?_)
    split
    · exact Pres.fail Evolves.refl _
    · split
      · exact Pres.fail Evolves.refl _
      · split
        · exact hrec _
        · exact Pres.fail Evolves.refl _
  · exact evolves_derivedStep hrec sys _ _ _ _ _
  · exact evolves_trainStep hrec _ _ _
  · exact evolves_runAct hrec _

theorem evolves_appStep (sys : Sys D H) (f l r sel) : Pres Evolves (appStep sys rec f l r sel) := by
  unfold appStep
  refine Pres.bind Evolves.trans (hrec _) (fun x => Pres.bind Evolves.trans ?_ (fun y => ?_))
  · split
    · exact Pres.pure Evolves.refl _
    · split
      · exact Pres.pure Evolves.refl _
      · exact Pres.bind Evolves.trans (hrec _) (fun _ => Pres.pure Evolves.refl _)
  · split
    · exact evolves_selectStep hrec sys _ _ _
    · exact hrec _

theorem evolves_evalStep (sys : Sys D H) (e) : Pres Evolves (evalStep sys rec e) := by
  unfold evalStep
  split
  · exact Pres.pure Evolves.refl _
  · refine Pres.bind Evolves.trans (Pres.getSt Evolves.refl) (fun s => ?_)
    split <;> exact Pres.pure Evolves.refl _
  · exact Pres.pure Evolves.refl _
  · exact hrec _
  · exact Pres.bind Evolves.trans (evolves_evalScalars hrec sys _) (fun _ => evolves_runAct hrec _)
  · exact Pres.bind Evolves.trans (evolves_evalAll hrec _) (fun _ => evolves_runAct hrec _)
  · exact Pres.bind Evolves.trans (evolves_evalAll hrec _) (fun _ => evolves_runAct hrec _)
  · exact Pres.pure Evolves.refl _
  · exact evolves_appStep hrec sys _ _ _ _

theorem evolves_stepTask (sys : Sys D H) (j) : Pres Evolves (stepTask sys rec j) := by
  cases j
  · exact evolves_evalStep hrec sys _
  · exact evolves_callStep hrec sys _ _ _
  · exact evolves_loopStep hrec sys _ _ _
end

/-- Every evaluation changes the state in the ways allowed. -/
theorem evolves_run (sys : Sys D H) (n : Nat) (j : Job D) : Pres Evolves (run sys n j) := by
  induction n generalizing j with
  | zero => exact Pres.noFuel
  | succ n ih => exact evolves_stepTask ih sys j

theorem keeps_run (sys : Sys D H) (n : Nat) (j : Job D) : Pres Keeps (run sys n j) :=
  fun s r s' h => (evolves_run sys n j s r s' h).keeps

end Iv

import Verif.Model.VarFs
import Verif.Props.PackageFile
import Verif.Props.Mount
/-
C85: variables and the environment of the process as files.
-/
namespace Iv
variable {D H : Type}

/- ## Specification -/

/-- Interpreters with open writers: a session of the interpreter, after any operations on files, and inside of any function calls. -/
inductive VarReach (w : World D H) (tx : TextOf D) : VarSystem D H → Prop
  | session (regs i) : Session w regs i → VarReach w tx ⟨i, []⟩
  | step (y op) : VarReach w tx y → VarReach w tx (varStep w tx y op).2
  | enter (y) (vars : Vars D) : VarReach w tx y →
      VarReach w tx ⟨⟨{ y.m.st with envs := y.m.st.envs ++ [⟨some y.m.st.cur, vars⟩], cur := y.m.st.envs.length }, y.m.pkgs⟩, y.writers⟩

/-- the operation does not run the interpreter and closes nothing -/
def VarOp.quiet : VarOp → Prop
  | .create _ => True
  | .write _ _ => True
  | _ => False

/-- The texts that a history writes to the handle `h` after it was closed for the last time. -/
def sinceClosed (h : Nat) (ops : List VarOp) : String :=
  ops.foldl (fun t op => match op with
    | .write k s => if k = h then t ++ s else t
    | .close k => if k = h then "" else t
    | _ => t) ""

/-- The state is the same, but the variable `name` of the environment `e` has the value `v`. -/
structure OnlySets (e : Nat) (name : String) (v : IVal D) (i j : Machine D H) : Prop where
  value : slot j.st.envs e name = some (some v)
  others : ∀ (e' : Nat) (n : String), (e' ≠ e ∨ n ≠ name) → slot j.st.envs e' n = slot i.st.envs e' n
  parents : ∀ (e' : Nat), (j.st.envs[e']?).map Env.parent = (i.st.envs[e']?).map Env.parent
  cur : j.st.cur = i.st.cur
  origin : j.st.origin = i.st.origin
  pp : j.st.pp = i.st.pp
  out : j.st.out = i.st.out
  heap : j.st.heap = i.st.heap
  pkgs : j.pkgs = i.pkgs

/-- the text ends with a slash -/
def IsDir (name : String) : Prop := ∃ cs, name.toList = cs ++ ['/']

/- ## Proof -/

theorem endsSlash_iff (s : String) : endsSlash s = true ↔ IsDir s := by
  rw [endsSlash, hasSuffix_iff]
  constructor
  · rintro ⟨t, h⟩; exact ⟨t, h.symm⟩
  · rintro ⟨t, h⟩; exact ⟨t, h.symm⟩

theorem sys_isVarname (w : World D H) (i : Machine D H) (name : String) : isVarname (i.sys w) name = isVarname w.sys name := by
  have h : ∀ (cs : List Char) (b : Bool), allowedAll (i.sys w) cs b = allowedAll w.sys cs b := by
    intro cs
    induction cs with
    | nil => intro b; rfl
    | cons c cs ih => intro b; simp only [allowedAll, ih]; rfl
  simp only [isVarname, h]
  rfl

/-- what closing does: nothing for an unusual name, an assignment otherwise -/
theorem closeVar_ordinary (w : World D H) (tx : TextOf D) (i : Machine D H) (vw : VarWriter) (ho : Ordinary vw.name) :
    closeVar w tx i vw =
      if isVarname w.sys vw.name = some false then
        if vw.name = "⍺" ∧ (envGet i.st.envs i.st.cur "⍺").isSome then (.ok (), i)
        else (.ok (), ⟨{ i.st with envs := putVar i.st.envs i.st.cur vw.name (some (.data (tx.str vw.buf))) }, i.pkgs⟩)
      else (.error .err, i) := by
  rw [closeVar, assignEnv, sys_isVarname]
  cases hv : isVarname w.sys vw.name with
  | none => simp [closeResult]
  | some b =>
    simp only
    rw [if_neg (by rw [ho.2.2.2]; simp), if_neg ho.2.2.1, if_neg ho.1, if_neg ho.2.1]
    cases b with
    | true => simp [closeResult, IVal.isFn]
    | false =>
      simp only [IVal.isFn, Bool.false_and, Bool.not_false, Bool.and_false, Bool.false_eq_true, if_false, Option.getD_none, if_true]
      by_cases h : vw.name = "⍺" ∧ (envGet i.st.envs i.st.cur "⍺").isSome = true
      · rw [if_pos h, if_pos h]; rfl
      · rw [if_neg h, if_neg h]; rfl

/-- the possible outcomes of closing, for any name -/
theorem closeVar_cases (w : World D H) (tx : TextOf D) (i : Machine D H) (vw : VarWriter) :
    ∃ n v, (closeVar w tx i vw).2.pkgs = i.pkgs ∧ (closeVar w tx i vw).2.st.cur = i.st.cur ∧
      ((closeVar w tx i vw).2.st.envs = i.st.envs ∨ (closeVar w tx i vw).2.st.envs = putVar i.st.envs i.st.cur n v) := by
  refine ⟨vw.name, some (.data (tx.str vw.buf)), ?_⟩
  rw [closeVar, assignEnv]
  cases isVarname (i.sys w) vw.name with
  | none => exact ⟨rfl, rfl, .inl rfl⟩
  | some b =>
    simp only
    repeat' split
    all_goals first | exact ⟨rfl, rfl, .inl rfl⟩ | exact ⟨rfl, rfl, .inr rfl⟩

theorem sound_putVar (i : Machine D H) (n v) (s : Sound i) (st : St D H) (hc : st.cur = i.st.cur)
    (he : st.envs = i.st.envs ∨ st.envs = putVar i.st.envs i.st.cur n v) : Sound ⟨st, i.pkgs⟩ := by
  have hp : ∀ e : Nat, (st.envs[e]?).map Env.parent = (i.st.envs[e]?).map Env.parent := by
    intro e
    rcases he with he | he
    · rw [he]
    · rw [he, putVar_get]
      cases i.st.envs[e]? with
      | none => rfl
      | some en => simp only [Option.map_some]; split <;> rfl
  have hl : st.envs.length = i.st.envs.length := by
    rcases he with he | he
    · rw [he]
    · rw [he, putVar_length]
  refine ⟨⟨by rw [hc, hl]; exact s.wf.cur, ?_⟩, ?_⟩
  · intro e en p h1 h2
    have := hp e
    rw [h1] at this
    cases hg : i.st.envs[e]? with
    | none => rw [hg] at this; cases this
    | some en' =>
      rw [hg] at this
      simp only [Option.map_some, Option.some.injEq] at this
      exact s.wf.parent e en' p hg (this.symm.trans h2)
  · intro nm e h
    obtain ⟨h1, h2⟩ := s.pkg nm e h
    refine ⟨by rw [hl]; exact h1, fun hon => h2 ?_⟩
    rw [hc] at hon
    exact onChain_parents i.st.envs.length s.wf.parent (fun e _ => hp e) hon s.wf.cur

theorem sound_step (w : World D H) (tx : TextOf D) (y : VarSystem D H) (op : VarOp) (s : Sound y.m) : Sound (varStep w tx y op).2.m := by
  cases op with
  | create name => rw [varStep]; split <;> exact s
  | write h t => rw [varStep]; split <;> exact s
  | close h =>
    rw [varStep]
    split
    · exact s
    · rename_i vw _
      obtain ⟨n, v, h1, h2, h3⟩ := closeVar_cases w tx y.m vw
      have := sound_putVar y.m n v s _ h2 h3
      rw [← h1] at this
      exact this
  | line n text =>
    rw [varStep]
    split
    · exact s
    · rename_i r j he
      exact (fine_evalLine w n text y.m r j he s).2.1

theorem sound_enter (y : Machine D H) (vars : Vars D) (s : Sound y) :
    Sound ⟨{ y.st with envs := y.st.envs ++ [⟨some y.st.cur, vars⟩], cur := y.st.envs.length }, y.pkgs⟩ := by
  have hg : ∀ e, e < y.st.envs.length → (y.st.envs ++ [(⟨some y.st.cur, vars⟩ : Env D)])[e]? = y.st.envs[e]? := fun e he => List.getElem?_append_left he
  have hn : (y.st.envs ++ [(⟨some y.st.cur, vars⟩ : Env D)])[y.st.envs.length]? = some ⟨some y.st.cur, vars⟩ := List.getElem?_concat_length
  refine ⟨⟨by simp, ?_⟩, ?_⟩
  · intro e en p h1 h2
    rcases Nat.lt_or_ge e y.st.envs.length with he | he
    · exact s.wf.parent e en p ((hg e he).symm.trans h1) h2
    · have hlt : e < (y.st.envs ++ [(⟨some y.st.cur, vars⟩ : Env D)]).length := (List.getElem?_eq_some_iff.1 h1).1
      have : e = y.st.envs.length := by simp only [List.length_append, List.length_singleton] at hlt; omega
      subst this
      have h1' := hn.symm.trans h1
      cases h1'
      simp only [Option.some.injEq] at h2
      rw [← h2]; exact s.wf.cur
  · intro nm e h
    obtain ⟨h1, h2⟩ := s.pkg nm e h
    refine ⟨by simp; omega, fun hon => h2 ?_⟩
    cases hon with
    | here => exact absurd h1 (Nat.lt_irrefl _)
    | up _ p _ en hgt hpar hon =>
      have h1' := hn.symm.trans hgt
      cases h1'
      simp only [Option.some.injEq] at hpar
      subst hpar
      exact onChain_parents y.st.envs.length s.wf.parent (fun e he => by rw [hg e he]) hon s.wf.cur

theorem reach_sound (w : World D H) (tx : TextOf D) (y : VarSystem D H) (h : VarReach w tx y) : Sound y.m := by
  induction h with
  | session regs i h => exact session_sound w regs i h
  | step y op _ ih => exact sound_step w tx y op ih
  | enter y vars _ ih => exact sound_enter y.m vars ih

theorem reach_run (w : World D H) (tx : TextOf D) (y : VarSystem D H) (ops : List VarOp) (h : VarReach w tx y) : VarReach w tx (varRun w tx y ops) := by
  induction ops generalizing y with
  | nil => exact h
  | cons op ops ih => exact ih _ (.step y op h)

/-- the writer of a handle during a history -/
theorem writer_run (w : World D H) (tx : TextOf D) (h : Nat) (name : String) (ops : List VarOp) (y : VarSystem D H) (t : String)
    (hw : y.writers[h]? = some ⟨name, t⟩) :
    (varRun w tx y ops).writers[h]? = some ⟨name, ops.foldl (fun t op => match op with
      | .write k s => if k = h then t ++ s else t
      | .close k => if k = h then "" else t
      | _ => t) t⟩ := by
  induction ops generalizing y t with
  | nil => exact hw
  | cons op ops ih =>
    have hlt : h < y.writers.length := (List.getElem?_eq_some_iff.1 hw).1
    cases op with
    | create nm =>
      refine ih (varStep w tx y _).2 t ?_
      rw [varStep]
      split
      · exact hw
      · exact (List.getElem?_append_left hlt).trans hw
    | line n text =>
      refine ih (varStep w tx y _).2 t ?_
      rw [varStep]
      split <;> exact hw
    | write k s =>
      refine ih (varStep w tx y _).2 _ ?_
      rw [varStep]
      by_cases hk : k = h
      · subst hk
        simp only [hw, if_true]
        simp [hlt]
      · split
        · simp only [hk, if_false]; exact hw
        · simp only [hk, if_false]
          rw [List.getElem?_set_ne hk]
          exact hw
    | close k =>
      refine ih (varStep w tx y _).2 _ ?_
      rw [varStep]
      by_cases hk : k = h
      · subst hk
        simp only [hw, if_true]
        simp [hlt]
      · split
        · simp only [hk, if_false]; exact hw
        · simp only [hk, if_false]
          rw [List.getElem?_set_ne hk]
          exact hw

theorem slot_binds (envs : List (Env D)) (e : Nat) (n : String) (x) (h : slot envs e n = some x) : Binds envs e n := by
  rw [slot] at h
  cases he : envs[e]? with
  | none => rw [he] at h; cases h
  | some en =>
    rw [he] at h
    exact ⟨en, he, by rw [Option.bind_some] at h; rw [h]; rfl⟩

theorem onlySets_putVar (i : Machine D H) (hc : i.st.cur < i.st.envs.length) (name : String) (v : IVal D) :
    OnlySets i.st.cur name v i ⟨{ i.st with envs := putVar i.st.envs i.st.cur name (some v) }, i.pkgs⟩ where
  value := by show slot (putVar _ _ _ _) _ _ = _; rw [slot_putVar _ _ _ _ hc]; simp
  others e' n hn := by
    show slot (putVar _ _ _ _) _ _ = _
    rw [slot_putVar _ _ _ _ hc, if_neg]
    rintro ⟨h1, h2⟩
    rcases hn with h | h
    · exact h h1
    · exact h h2
  parents e' := by
    show ((putVar _ _ _ _)[e']?).map _ = _
    rw [putVar_get]
    cases i.st.envs[e']? with
    | none => rfl
    | some en => simp only [Option.map_some]; split <;> rfl
  cur := rfl
  origin := rfl
  pp := rfl
  out := rfl
  heap := rfl
  pkgs := rfl

/- ## Theorems -/

/-- Reading the file of a variable gives the text of its value: of the innermost binding. -/
theorem C85_open (w : World D H) (tx : TextOf D) (y : VarSystem D H) (hy : VarReach w tx y) (name mpt : String) (h0 : name ≠ "") (hd : ¬ IsDir name)
    (ho : Ordinary name) :
    (∀ e v, Resolves y.m.st.envs name y.m.st.cur e → slot y.m.st.envs e name = some (some v) →
      openVar w tx y.m name mpt = .ok (.text (tx.text y.m.st.pp v))) ∧
    ((∀ e, ¬ Resolves y.m.st.envs name y.m.st.cur e) → openVar w tx y.m name mpt = .error .err) := by
  have hb : ¬ (name = "" ∨ endsSlash name = true) := by
    rintro (h | h)
    · exact h0 h
    · exact hd ((endsSlash_iff name).1 h)
  have s := reach_sound w tx y hy
  constructor
  · intro e v hr hs
    rw [openVar, if_neg hb, Machine.lookup, C44_lookup (y.m.sys w) y.m.st s.wf name ho e hr, hs]
    rfl
  · intro hr
    rw [openVar, if_neg hb, Machine.lookup, C44_lookup_none (y.m.sys w) y.m.st s.wf name ho hr]
    rfl

/-- A variable can be opened for writing exactly if it exists and holds a string. -/
theorem C85_create (w : World D H) (tx : TextOf D) (y : VarSystem D H) (hy : VarReach w tx y) (name : String) (ho : Ordinary name) :
    (varStep w tx y (.create name)).1 = true ↔
      ¬ IsDir name ∧ ∃ e d, Resolves y.m.st.envs name y.m.st.cur e ∧ slot y.m.st.envs e name = some (some (.data d)) ∧ tx.isStr d = true := by
  have s := reach_sound w tx y hy
  have key : (varStep w tx y (.create name)).1 = true ↔ (endsSlash name = false ∧ canWrite tx (y.m.lookup w name) = true) := by
    rw [varStep, createVar]
    cases endsSlash name with
    | true => simp
    | false =>
      simp only [Bool.false_eq_true, if_false, ho.2.2.2]
      cases canWrite tx (y.m.lookup w name) <;> simp
  rw [key, ← Bool.not_eq_true, endsSlash_iff]
  refine and_congr_right fun _ => ?_
  rw [Machine.lookup]
  constructor
  · intro h
    by_cases hr : ∃ e, Resolves y.m.st.envs name y.m.st.cur e
    · obtain ⟨e, hr⟩ := hr
      rw [C44_lookup (y.m.sys w) y.m.st s.wf name ho e hr] at h
      obtain hs | ⟨x, hs⟩ : slot y.m.st.envs e name = none ∨ ∃ x, slot y.m.st.envs e name = some x := by
        cases slot y.m.st.envs e name <;> simp
      · rw [hs] at h; cases h
      · rw [hs] at h
        cases x with
        | none => cases h
        | some v => cases v with
          | data d => exact ⟨e, d, hr, hs, h⟩
          | fn _ => cases h
          | ident _ => cases h
          | target _ => cases h
    · rw [C44_lookup_none (y.m.sys w) y.m.st s.wf name ho (fun e he => hr ⟨e, he⟩)] at h
      cases h
  · rintro ⟨e, d, hr, hs, hd⟩
    rw [C44_lookup (y.m.sys w) y.m.st s.wf name ho e hr, hs]
    exact hd

/-- Package variables and directories cannot be opened for writing. -/
theorem C85_create_rejected (w : World D H) (tx : TextOf D) (y : VarSystem D H) (name : String) (h : IsDir name ∨ '→' ∈ name.toList) :
    varStep w tx y (.create name) = (false, y) := by
  rw [varStep, createVar]
  rcases h with h | h
  · rw [if_pos ((endsSlash_iff name).2 h)]
  · by_cases he : endsSlash name = true
    · rw [if_pos he]
    · rw [if_neg he, if_pos (by simpa using h)]

/-- Nothing changes until a writer is closed. -/
theorem C85_quiet (w : World D H) (tx : TextOf D) (y : VarSystem D H) (ops : List VarOp) (h : ∀ op ∈ ops, op.quiet) :
    (varRun w tx y ops).m = y.m := by
  induction ops generalizing y with
  | nil => rfl
  | cons op ops ih =>
    rw [varRun, List.foldl_cons]
    refine (ih _ (fun o ho => h o (by simp [ho]))).trans ?_
    have hq := h op (by simp)
    cases op with
    | create name => rw [varStep]; split <;> rfl
    | write k t => rw [varStep]; split <;> rfl
    | close k => exact absurd hq id
    | line n t => exact absurd hq id

/-- After a variable has been opened for writing and after any further history, closing the writer assigns exactly the texts written to this
writer (since it was closed the last time), in order, to the variable of this name in the current environment, and does nothing else.  The
exception: the left argument of a function cannot be assigned.  A failing close has no effect. -/
theorem C85_close (w : World D H) (tx : TextOf D) (y : VarSystem D H) (hy : VarReach w tx y) (name : String) (ho : Ordinary name)
    (hc : (varStep w tx y (.create name)).1 = true) (ops : List VarOp) :
    let z := varRun w tx y (.create name :: ops)
    ((varStep w tx z (.close y.writers.length)).1 = true →
      (name = "⍺" ∧ (envGet z.m.st.envs z.m.st.cur "⍺").isSome ∧ (varStep w tx z (.close y.writers.length)).2.m = z.m) ∨
      OnlySets z.m.st.cur name (.data (tx.str (sinceClosed y.writers.length ops))) z.m (varStep w tx z (.close y.writers.length)).2.m) ∧
    ((varStep w tx z (.close y.writers.length)).1 = false → (varStep w tx z (.close y.writers.length)).2.m = z.m) ∧
    ((varStep w tx z (.close y.writers.length)).1 = true ↔ isVarname w.sys name = some false) := by
  intro z
  have hz : VarReach w tx z := reach_run w tx y _ hy
  have hw : z.writers[y.writers.length]? = some ⟨name, sinceClosed y.writers.length ops⟩ := by
    refine writer_run w tx y.writers.length name ops (varStep w tx y (.create name)).2 "" ?_
    rw [varStep] at hc ⊢
    cases hcr : createVar w tx y.m name with
    | error e => rw [hcr] at hc; cases hc
    | ok vw =>
      have : vw = ⟨name, ""⟩ := by
        rw [createVar] at hcr
        split at hcr
        · cases hcr
        split at hcr
        · cases hcr
        split at hcr
        · cases hcr; rfl
        · cases hcr
      subst this
      exact List.getElem?_concat_length
  have hstep : varStep w tx z (.close y.writers.length) =
      ((closeVar w tx z.m ⟨name, sinceClosed y.writers.length ops⟩).1.toOption.isSome,
        ⟨(closeVar w tx z.m ⟨name, sinceClosed y.writers.length ops⟩).2, z.writers.set y.writers.length ⟨name, ""⟩⟩) := by
    rw [varStep, hw]
  rw [hstep, closeVar_ordinary w tx z.m _ ho]
  have hcur := (reach_sound w tx z hz).wf.cur
  by_cases hv : isVarname w.sys name = some false
  · rw [if_pos hv]
    by_cases ha : name = "⍺" ∧ (envGet z.m.st.envs z.m.st.cur "⍺").isSome = true
    · rw [if_pos ha]
      exact ⟨fun _ => .inl ⟨ha.1, ha.2, rfl⟩, (fun h => by cases h), fun _ => hv, fun _ => rfl⟩
    · rw [if_neg ha]
      exact ⟨fun _ => .inr (onlySets_putVar z.m hcur name _), (fun h => by cases h), fun _ => hv, fun _ => rfl⟩
  · rw [if_neg hv]
    exact ⟨(fun h => by cases h), fun _ => rfl, (fun h => by cases h), fun h => absurd h hv⟩

/-- After a successful close, reading the file gives the text that was written, if strings are shown without a special format. -/
theorem C85_read_back (w : World D H) (tx : TextOf D) (y : VarSystem D H) (hy : VarReach w tx y) (name mpt : String) (ho : Ordinary name) (ha : name ≠ "⍺")
    (hc : (varStep w tx y (.create name)).1 = true) (ops : List VarOp) (hs : ∀ pp t, tx.text pp (.data (tx.str t)) = t)
    (hok : (varStep w tx (varRun w tx y (.create name :: ops)) (.close y.writers.length)).1 = true) :
    openVar w tx (varStep w tx (varRun w tx y (.create name :: ops)) (.close y.writers.length)).2.m name mpt =
      .ok (.text (sinceClosed y.writers.length ops)) := by
  obtain ⟨h1, _, h3⟩ := C85_close w tx y hy name ho hc ops
  have hd : ¬ IsDir name := ((C85_create w tx y hy name ho).1 hc).1
  have h0 : name ≠ "" := by
    rintro rfl
    have := h3.1 hok
    simp [isVarname] at this
  rcases h1 hok with ⟨h, _⟩ | h
  · exact absurd h ha
  · refine ((C85_open w tx _ (.step _ _ (reach_run w tx y _ hy)) name mpt h0 hd ho).1
      (varRun w tx y (.create name :: ops)).m.st.cur (.data (tx.str (sinceClosed y.writers.length ops))) ?_ h.value).trans ?_
    · rw [h.cur]
      exact .here _ (slot_binds _ _ _ _ h.value)
    · rw [hs]

/-- Writing to a variable that was found outside of the current function leaves that variable as it is: a new one hides it. -/
theorem C85_shadows (w : World D H) (tx : TextOf D) (y : VarSystem D H) (hy : VarReach w tx y) (name : String) (ho : Ordinary name) (ha : name ≠ "⍺")
    (hc : (varStep w tx y (.create name)).1 = true) (e : Nat) (he : e ≠ y.m.st.cur) (t : String) :
    slot (varRun w tx y [.create name, .write y.writers.length t, .close y.writers.length]).m.st.envs e name = slot y.m.st.envs e name := by
  have hq : (varRun w tx y [.create name, .write y.writers.length t]).m = y.m :=
    C85_quiet w tx y _ (by intro op h; simp at h; rcases h with rfl | rfl <;> trivial)
  obtain ⟨h1, h2, _⟩ := C85_close w tx y hy name ho hc [.write y.writers.length t]
  rw [hq] at h1 h2
  show slot (varStep w tx (varRun w tx y [.create name, .write y.writers.length t]) (.close y.writers.length)).2.m.st.envs e name = _
  cases hb : (varStep w tx (varRun w tx y [.create name, .write y.writers.length t]) (.close y.writers.length)).1 with
  | true =>
    rcases h1 hb with ⟨h, _⟩ | h
    · exact absurd h ha
    · exact h.others e name (.inl he)
  | false => rw [h2 hb]

/-! ### Listings -/

theorem mem_insertName (x y : String) (l : List String) : y ∈ insertName x l ↔ y = x ∨ y ∈ l := by
  induction l with
  | nil => simp [insertName]
  | cons z l ih =>
    rw [insertName]
    split
    · rw [List.mem_cons, ih, List.mem_cons]
      constructor
      · rintro (h | h | h)
        · exact .inr (.inl h)
        · exact .inl h
        · exact .inr (.inr h)
      · rintro (h | h | h)
        · exact .inr (.inl h)
        · exact .inl h
        · exact .inr (.inr h)
    · rw [List.mem_cons]

theorem mem_sortNames (y : String) (l : List String) : y ∈ sortNames l ↔ y ∈ l := by
  induction l with
  | nil => simp [sortNames]
  | cons x l ih => rw [sortNames, mem_insertName, ih, List.mem_cons]

theorem insertName_length (x : String) (l : List String) : (insertName x l).length = l.length + 1 := by
  induction l with
  | nil => rfl
  | cons z l ih => rw [insertName]; split <;> simp [ih]

theorem sortNames_length (l : List String) : (sortNames l).length = l.length := by
  induction l with
  | nil => rfl
  | cons x l ih => rw [sortNames, insertName_length, ih]; rfl

theorem insertName_sorted (x : String) (l : List String) (h : l.Pairwise (· ≤ ·)) : (insertName x l).Pairwise (· ≤ ·) := by
  induction l with
  | nil => simp [insertName]
  | cons z l ih =>
    rw [insertName]
    have hz := List.pairwise_cons.1 h
    split
    · rename_i hlt
      refine List.pairwise_cons.2 ⟨?_, ih hz.2⟩
      intro a ha
      rcases (mem_insertName x a l).1 ha with rfl | ha
      · exact String.not_lt.1 (fun h => String.lt_asymm hlt h)
      · exact hz.1 a ha
    · rename_i hlt
      have hxz : x ≤ z := String.not_lt.1 hlt
      refine List.pairwise_cons.2 ⟨?_, h⟩
      intro a ha
      rcases List.mem_cons.1 ha with rfl | ha
      · exact hxz
      · exact String.le_trans hxz (hz.1 a ha)

theorem sortNames_sorted (l : List String) : (sortNames l).Pairwise (· ≤ ·) := by
  induction l with
  | nil => exact .nil
  | cons x l ih => exact insertName_sorted x _ ih

theorem mem_mapNames {V : Type} (m : List (String × V)) (n : String) : n ∈ mapNames m ↔ (mapGet m n).isSome := by
  induction m with
  | nil => simp [mapNames, mapGet]
  | cons kv m ih =>
    obtain ⟨k, v⟩ := kv
    rw [mapGet]
    split
    · rename_i h; subst h; simp [mapNames]
    · rename_i h
      rw [← ih]
      simp only [mapNames, List.map_cons, List.mem_cons]
      exact ⟨fun h' => h'.resolve_left (fun e => h e.symm), .inr⟩

theorem mem_envNames (envs : List (Env D)) (e : Nat) (n : String) : n ∈ envNames envs e ↔ Binds envs e n := by
  rw [envNames, Binds]
  cases envs[e]? with
  | none => simp
  | some en => simp only [Option.some.injEq, exists_eq_left']; exact mem_mapNames _ _

/-- The listing of all variables: in alphabetical order, a row for every package, whose name ends with a slash, and a row for every variable of
the current environment; nothing else. -/
theorem C85_listing (w : World D H) (tx : TextOf D) (i : Machine D H) (mpt : String) :
    ∃ names : List String, openVar w tx i "" mpt = .ok (.rows (names.map (listRow w tx i mpt))) ∧ names.Pairwise (· ≤ ·) ∧
      ∀ n, n ∈ names ↔ (∃ p, (mapGet i.pkgs p).isSome ∧ n = p ++ "/") ∨ Binds i.st.envs i.st.cur n := by
  refine ⟨sortNames (mapNames i.pkgs |>.map (· ++ "/") |>.append (envNames i.st.envs i.st.cur)), ?_, sortNames_sorted _, ?_⟩
  · rw [openVar, if_pos (.inl rfl), listVars]
    have : trimSlash "" = "" := rfl
    rw [this, varList, if_pos rfl]
    simp [Except.map]
  · intro n
    rw [mem_sortNames]
    show n ∈ (_ : List String) ++ _ ↔ _
    rw [List.mem_append, mem_envNames, List.mem_map]
    constructor
    · rintro (⟨p, h1, h2⟩ | h)
      · exact .inl ⟨p, (mem_mapNames _ _).1 h1, h2.symm⟩
      · exact .inr h
    · rintro (⟨p, h1, h2⟩ | h)
      · exact .inl ⟨p, (mem_mapNames _ _).2 h1, h2.symm⟩
      · exact .inr h

/-- The listing of a package: in alphabetical order, a row `package→name` for every variable of it; an unknown package is an error. -/
theorem C85_listing_package (w : World D H) (tx : TextOf D) (i : Machine D H) (p mpt : String) (h0 : p ≠ "") :
    (∀ e, mapGet i.pkgs p = some e →
      ∃ names : List String, openVar w tx i (p ++ "/") mpt = .ok (.rows (names.map (fun n => listRow w tx i mpt (p ++ "→" ++ n)))) ∧
        names.Pairwise (· ≤ ·) ∧ ∀ n, n ∈ names ↔ Binds i.st.envs e n) ∧
    (mapGet i.pkgs p = none → openVar w tx i (p ++ "/") mpt = .error .err) := by
  have hs : endsSlash (p ++ "/") = true := (endsSlash_iff _).2 ⟨p.toList, by simp⟩
  have ht : trimSlash (p ++ "/") = p := by
    rw [trimSlash, if_pos hs]
    have : (p ++ "/").toList = p.toList ++ ['/'] := by simp
    rw [this, List.dropLast_concat]
    simp
  constructor
  · intro e he
    refine ⟨sortNames (envNames i.st.envs e), ?_, sortNames_sorted _, ?_⟩
    · rw [openVar, if_pos (.inr hs), listVars, ht, varList, if_neg h0, he]
      simp [Except.map, if_neg h0]
    · intro n; rw [mem_sortNames, mem_envNames]
  · intro he
    rw [openVar, if_pos (.inr hs), listVars, ht, varList, if_neg h0, he]
    rfl

/-- Every listed variable with a proper name can be opened under this name, and the file has the text of its value. -/
theorem C85_listed_opens (w : World D H) (tx : TextOf D) (y : VarSystem D H) (hy : VarReach w tx y) (name mpt : String) (v : IVal D)
    (hs : slot y.m.st.envs y.m.st.cur name = some (some v)) (ho : Ordinary name) (hn : isVarname w.sys name ≠ none)
    (hl : w.sys.letter '/' = false) (hnum : w.sys.number '/' = false) :
    openVar w tx y.m name mpt = .ok (.text (tx.text y.m.st.pp v)) ∧
    listRow w tx y.m mpt name = (mpt ++ name, tx.info v) := by
  have h0 : name ≠ "" := by rintro rfl; simp [isVarname] at hn
  have hd : ¬ IsDir name := by
    rintro ⟨cs, hcs⟩
    apply hn
    have hno : afterArrow name.toList = none := by
      have := ho.2.2.2
      generalize name.toList = l at this
      induction l with
      | nil => rfl
      | cons c l ih =>
        simp only [List.contains_cons, Bool.or_eq_false_iff] at this
        have hc : c ≠ '→' := by
          intro h; subst h; simp at this
        simp only [afterArrow, hc, if_false]
        exact ih this.2
    have hall : ∀ (cs : List Char) (b : Bool), allowedAll w.sys (cs ++ ['/']) b = false := by
      intro cs
      induction cs with
      | nil => intro b; cases b <;> simp [allowedAll, allowedInVarname, hl, hnum]
      | cons c cs ih => intro b; simp [allowedAll, ih]
    rw [isVarname, hno, Option.getD_none, hcs]
    simp only [hall]
    simp
  have hr : Resolves y.m.st.envs name y.m.st.cur y.m.st.cur := .here _ (slot_binds _ _ _ _ hs)
  refine ⟨(C85_open w tx y hy name mpt h0 hd ho).1 _ v hr hs, ?_⟩
  rw [listRow, if_neg (fun h => hd ((endsSlash_iff name).1 h)), Machine.lookup,
    C44_lookup (y.m.sys w) y.m.st (reach_sound w tx y hy).wf name ho _ hr, hs]
  rfl

/-! ### The environment of the process -/

/-- Writing an environment variable: it succeeds unless the name is empty or has an "=" or a zero, or the text has a zero; then the variable is the
concatenation of the written texts, and all others are as before. -/
theorem C85_environment (env : List (String × String)) (name mpt : String) (texts : List String) :
    (∀ env', writeEnv env name texts = .ok env' →
      openEnv env' name mpt = .ok (.text (String.join texts)) ∧ ∀ n, n ≠ name → mapGet env' n = mapGet env n) ∧
    ((∃ env', writeEnv env name texts = .ok env') ↔
      name ≠ "" ∧ '=' ∉ name.toList ∧ Char.ofNat 0 ∉ name.toList ∧ Char.ofNat 0 ∉ (String.join texts).toList) := by
  rw [writeEnv, setenv]
  by_cases h0 : name = ""
  · simp [h0]
  · by_cases h1 : name.toList.contains '=' = true ∨ name.toList.contains (Char.ofNat 0) = true
    · rw [if_neg h0, if_pos h1]
      constructor
      · intro e h; cases h
      · constructor
        · rintro ⟨e, h⟩; cases h
        · rintro ⟨_, h2, h3, _⟩
          simp only [List.contains_iff_mem] at h1
          rcases h1 with h | h
          · exact absurd h h2
          · exact absurd h h3
    · by_cases h2 : (String.join texts).toList.contains (Char.ofNat 0) = true
      · rw [if_neg h0, if_neg h1, if_pos h2]
        constructor
        · intro e h; cases h
        · constructor
          · rintro ⟨e, h⟩; cases h
          · rintro ⟨_, _, _, h3⟩
            exact absurd (List.contains_iff_mem.1 h2) h3
      · rw [if_neg h0, if_neg h1, if_neg h2]
        constructor
        · intro e h
          cases h
          refine ⟨?_, ?_⟩
          · rw [openEnv, if_neg h0, mapGet_set_name, if_pos rfl]
          · intro n hn
            rw [mapGet_set_name, if_neg (fun h => hn h.symm)]
        · simp only [List.contains_iff_mem] at h1 h2
          refine ⟨fun _ => ⟨h0, fun h => h1 (.inl h), fun h => h1 (.inr h), h2⟩, fun _ => ⟨_, rfl⟩⟩

namespace VarDemo

/-- numbers and texts -/
abbrev Data := Int ⊕ String

def sys : Sys Data Unit where
  letter := Char.isAlpha
  number := Char.isDigit
  upper := Char.isUpper
  toBool _ := none
  isScalar _ := true
  ofInt := .inl
  empty := .inl 0
  strand _ := .ret (.error .err)
  list _ := .ret (.error .err)
  spec _ := .ret (.error .err)
  copy v := .ret (.ok v)
  prims := registry []
  ops _ := []
  native _ _ _ := .ret (.error .err)
  pkgVar _ := none
  setPP _ := none
  setIdx _ _ _ _ := .ret (.error .err)
  elems _ := .ret (.error .err)

def world : World Data Unit where
  sys := sys
  ctx := PkgDemo.world.ctx
  pctx :=
    { prim := fun _ => false
      op := fun s => if s = "←" then some false else none
      varname := PkgDemo.world.pctx.varname
      number := fun s => if s = "1" then some (.inl 1) else none
      str := fun s => .inr s
      empty := .inl 0 }
  lower cs := cs.all Char.isLower
  load _ := none
  files _ := none

def tx : TextOf Data where
  str := .inr
  isStr d := match d with
    | .inr _ => true
    | _ => false
  text _ v := match v with
    | .data (.inr s) => s
    | .data (.inl _) => "1"
    | _ => "f"
  info v := match v with
    | .data (.inr _) => "apl.String"
    | _ => "apl.Int"

/-- a session with a text and a number, and a package -/
def start : VarSystem Data Unit :=
  varRun world tx ⟨registerPackage "p" [("V", some (.data (.inl 1)))] ⟨St.init (), []⟩, []⟩ [.line 20 "X←\"old\"".toList, .line 20 "Y←1".toList]

theorem start_reach : VarReach world tx start := by
  refine reach_run world tx _ _ (.session [("p", [("V", some (.data (.inl 1)))])] _ (.register [] _ "p" _ (.new ())))

-- the listing: packages and variables; reading
example : openVar world tx start.m "" "/v/" = .ok (.rows [("/v/X", "apl.String"), ("/v/Y", "apl.Int"), ("/v/p/", "")]) := by
  decide +kernel
example : openVar world tx start.m "X" "/v/" = .ok (.text "old") := by decide +kernel
example : openVar world tx start.m "p→V" "/v/" = .ok (.text "1") := by decide +kernel
example : openVar world tx start.m "p/" "/v/" = .ok (.rows [("/v/p→V", "apl.Int")]) := by decide +kernel
-- X can be written, Y cannot, and a new variable cannot be created
example : (varStep world tx start (.create "X")).1 = true := by decide +kernel
example : (varStep world tx start (.create "Y")).1 = false := by decide +kernel
example : (varStep world tx start (.create "Z")).1 = false := by decide +kernel
-- two writers to the same variable
example : let z := varRun world tx start [.create "X", .create "X", .write 0 "ab", .write 1 "u", .write 0 "cd"]
    openVar world tx z.m "X" "" = .ok (.text "old") ∧
    openVar world tx (varStep world tx z (.close 0)).2.m "X" "" = .ok (.text "abcd") ∧
    openVar world tx (varRun world tx z [.close 0, .close 1]).m "X" "" = .ok (.text "u") := by decide +kernel
example : sinceClosed 0 [.create "X", .write 0 "ab", .write 1 "u", .write 0 "cd"] = "abcd" := by decide +kernel
example : Ordinary "X" ∧ ¬ IsDir "X" ∧ isVarname world.sys "X" = some false := by
  refine ⟨by unfold Ordinary; decide +kernel, ?_, by decide +kernel⟩
  rintro ⟨cs, h⟩
  have : endsSlash "X" = true := (endsSlash_iff _).2 ⟨cs, h⟩
  revert this; decide +kernel
-- inside of a function the outer X is hidden
example : let f : VarSystem Data Unit := ⟨⟨{ start.m.st with envs := start.m.st.envs ++ [⟨some 0, []⟩], cur := 2 }, start.m.pkgs⟩, []⟩
    let z := varRun world tx f [.create "X", .write 0 "new", .close 0]
    openVar world tx z.m "X" "" = .ok (.text "new") ∧ (slot z.m.st.envs 0 "X").join.map (tx.text 0) = some "old" := by
  decide +kernel

end VarDemo

end Iv

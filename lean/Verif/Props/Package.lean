import Verif.Model.Package
import Verif.Props.Interp
import Verif.Props.Dict
import Verif.Props.Program
import Verif.Props.Scan
/-
C77: packages, files and sessions.
-/
namespace Iv
variable {D H : Type}

/- ## Specification -/

/-- The machine with a new empty environment as the current one: where a package file is evaluated. -/
def Machine.fresh (i : Machine D H) : Machine D H := ⟨{ i.st with envs := i.st.envs ++ [⟨none, []⟩], cur := i.st.envs.length }, i.pkgs⟩

/-- The environment `e` is the result of the complete evaluation of a file: it started empty, all lines of the file were evaluated without an
error, and it holds what it held at the end of the file. -/
def Loaded (w : World D H) (envs : List (Env D)) (e : Nat) : Prop :=
  ∃ (file : String) (lines : List (List Char)) (n : Nat) (i j : Machine D H), w.files file = some lines ∧ e = i.st.envs.length ∧
    evalFile w n lines .reset true i.fresh = some (.ok (), j) ∧ envs[e]? = j.st.envs[e]?

/-- Sessions: a new interpreter, packages registered by Go code (`regs`), and lines of input, each with any outcome. -/
inductive Session (w : World D H) : List (String × Vars D) → Machine D H → Prop
  | new (h : H) : Session w [] ⟨St.init h, []⟩
  | register (regs i) (name : String) (vars : Vars D) : Session w regs i → Session w ((name, vars) :: regs) (registerPackage name vars i)
  | line (regs i n text r j) : Session w regs i → evalLine w n text i = some (r, j) → Session w regs j

/- ## Proof -/

/-- packages exist and are not in the chain of the current environment -/
structure Sound (i : Machine D H) : Prop where
  wf : WF i.st
  pkg : ∀ nm e, mapGet i.pkgs nm = some e → e < i.st.envs.length ∧ ¬ OnChain i.st.envs i.st.cur e

/-- what an evaluation keeps -/
structure Grows (i j : Machine D H) : Prop where
  cur : j.st.cur = i.st.cur
  len : i.st.envs.length ≤ j.st.envs.length
  parent : ∀ e, e < i.st.envs.length → (j.st.envs[e]?).map Env.parent = (i.st.envs[e]?).map Env.parent
  off : ∀ e, e < i.st.envs.length → ¬ OnChain i.st.envs i.st.cur e → j.st.envs[e]? = i.st.envs[e]?

/-- what is proved for every evaluation -/
def Fine (w : World D H) (m : MM D H) : Prop := ∀ i r j, m i = some (r, j) → Sound i →
  Grows i j ∧ Sound j ∧ ∀ nm e, mapGet j.pkgs nm = some e → mapGet i.pkgs nm = some e ∨ (i.st.envs.length ≤ e ∧ Loaded w j.st.envs e)

theorem onChain_le {envs : List (Env D)} (hp : ∀ (i : Nat) (en : Env D) (p : Nat), envs[i]? = some en → en.parent = some p → p < i) {i e : Nat}
    (h : OnChain envs i e) : e ≤ i := by
  induction h with
  | here => exact Nat.le_refl _
  | up e p e' en h1 h2 _ ih => have := hp _ _ _ h1 h2; omega

theorem onChain_parents {envs envs' : List (Env D)} (n : Nat) (hp : ∀ (i : Nat) (en : Env D) (p : Nat), envs[i]? = some en → en.parent = some p → p < i)
    (h : ∀ e, e < n → (envs'[e]?).map Env.parent = (envs[e]?).map Env.parent) {i e : Nat} (hc : OnChain envs' i e) (hi : i < n) : OnChain envs i e := by
  induction hc with
  | here => exact .here _
  | up e p e' en h1 h2 _ ih =>
    have := h e hi
    rw [h1] at this
    cases hg : envs[e]? with
    | none => rw [hg] at this; cases this
    | some en' =>
      rw [hg] at this
      simp only [Option.map_some, Option.some.injEq] at this
      rw [h2] at this
      exact .up _ p _ en' hg this.symm (ih (by have := hp _ _ _ hg this.symm; omega))

theorem Grows.refl (i : Machine D H) : Grows i i := ⟨rfl, Nat.le_refl _, fun _ _ => rfl, fun _ _ _ => rfl⟩

theorem Grows.chain {i j : Machine D H} (g : Grows i j) (s : WF i.st) {e : Nat} (h : OnChain j.st.envs j.st.cur e) : OnChain i.st.envs i.st.cur e := by
  rw [g.cur] at h
  exact onChain_parents i.st.envs.length s.parent g.parent h s.cur

theorem Grows.trans {i j k : Machine D H} (s : WF i.st) (h1 : Grows i j) (h2 : Grows j k) : Grows i k where
  cur := h2.cur.trans h1.cur
  len := Nat.le_trans h1.len h2.len
  parent e he := (h2.parent e (Nat.lt_of_lt_of_le he h1.len)).trans (h1.parent e he)
  off e he hc := (h2.off e (Nat.lt_of_lt_of_le he h1.len) (fun h => hc (h1.chain s h))).trans (h1.off e he hc)

theorem loaded_mono (w : World D H) {envs envs' : List (Env D)} {e : Nat} (h : Loaded w envs e) (he : envs'[e]? = envs[e]?) : Loaded w envs' e := by
  obtain ⟨file, lines, n, i, j, h1, h2, h3, h4⟩ := h
  exact ⟨file, lines, n, i, j, h1, h2, h3, he.trans h4⟩

theorem fine_stay (w : World D H) (r : Except Fail Unit) : Fine w (fun i => some (r, i)) := by
  intro i r' j h s
  cases h
  exact ⟨Grows.refl _, s, fun nm e h => .inl h⟩

theorem fine_none (w : World D H) : Fine w (fun _ => none) := by
  intro i r j h
  cases h

theorem fine_andThen (w : World D H) {m k : MM D H} (hm : Fine w m) (hk : Fine w k) : Fine w (andThen m k) := by
  intro i r j h s
  rw [andThen] at h
  cases hmi : m i with
  | none => rw [hmi] at h; cases h
  | some x =>
    obtain ⟨r', i1⟩ := x
    rw [hmi] at h
    obtain ⟨g1, s1, p1⟩ := hm i _ i1 hmi s
    cases r' with
    | error e => cases h; exact ⟨g1, s1, p1⟩
    | ok u =>
      obtain ⟨g2, s2, p2⟩ := hk i1 r j h s1
      refine ⟨g1.trans s.wf g2, s2, ?_⟩
      intro nm e he
      rcases p2 nm e he with h' | ⟨h', hl⟩
      · rcases p1 nm e h' with h'' | ⟨h'', hl⟩
        · exact .inl h''
        · exact .inr ⟨h'', loaded_mono w hl (g2.off e (s1.pkg nm e h').1 (s1.pkg nm e h').2)⟩
      · exact .inr ⟨Nat.le_trans g1.len h', hl⟩

theorem fine_thenWrite (w : World D H) {m : MM D H} (hm : Fine w m) : Fine w (thenWrite w m) := by
  intro i r j h s
  rw [thenWrite] at h
  cases hmi : m i with
  | none => rw [hmi] at h; cases h
  | some x =>
    obtain ⟨r', i1⟩ := x
    rw [hmi] at h
    obtain ⟨g1, s1, p1⟩ := hm i _ i1 hmi s
    cases r' with
    | error e => cases h; exact ⟨g1, s1, p1⟩
    | ok u =>
      cases h
      exact ⟨⟨g1.cur, g1.len, g1.parent, g1.off⟩, ⟨⟨s1.wf.cur, s1.wf.parent⟩, s1.pkg⟩, p1⟩

theorem evolves_evalWrite (sys : Sys D H) (n : Nat) (p : List (Option (Expr D))) : Pres Evolves (evalWrite sys n p) := by
  induction p with
  | nil => exact Pres.pure Evolves.refl ()
  | cons e es ih =>
    refine Pres.bind Evolves.trans ?_ (fun v => Pres.bind Evolves.trans ?_ (fun _ => ih))
    · cases e with
      | none => exact Pres.fail Evolves.refl _
      | some e => exact evolves_run sys n _
    · rw [writeStmt]
      split
      · exact Pres.pure Evolves.refl ()
      · intro s r s' h
        cases h
        exact .other _ _ rfl rfl

theorem fine_evalMachine (w : World D H) (n : Nat) (p : List (Option (Expr D))) : Fine w (evalMachine w n p) := by
  intro i r j h s
  rw [evalMachine] at h
  cases hr : evalWrite (i.sys w) n p i.st with
  | none => rw [hr] at h; cases h
  | some x =>
    obtain ⟨r', s'⟩ := x
    rw [hr] at h
    cases h
    have ev := evolves_evalWrite (i.sys w) n p i.st _ _ hr
    have k := ev.keeps
    have g : Grows i ⟨s', i.pkgs⟩ := ⟨k.cur, k.len, k.parent, fun e he hc => evolves_unreachable ev s.wf e he hc⟩
    refine ⟨g, ⟨k.wf s.wf, ?_⟩, fun nm e he => .inl he⟩
    intro nm e he
    obtain ⟨h1, h2⟩ := s.pkg nm e he
    exact ⟨Nat.lt_of_lt_of_le h1 k.len, fun hc => h2 (g.chain s.wf hc)⟩

theorem fresh_get (i : Machine D H) (e : Nat) (he : e < i.st.envs.length) : i.fresh.st.envs[e]? = i.st.envs[e]? := List.getElem?_append_left he

theorem fresh_chain (i : Machine D H) (e : Nat) (h : OnChain i.fresh.st.envs i.fresh.st.cur e) : e = i.st.envs.length := by
  generalize hx : i.fresh.st.cur = x at h
  have hx' : x = i.st.envs.length := hx.symm
  cases h with
  | here => exact hx'
  | up _ p _ en h1 h2 _ =>
    subst hx'
    have : i.fresh.st.envs[i.st.envs.length]? = some ⟨none, []⟩ := by
      show (i.st.envs ++ [⟨none, []⟩])[i.st.envs.length]? = _
      rw [List.getElem?_append_right (Nat.le_refl _)]
      simp
    rw [this] at h1
    cases h1
    cases h2

theorem fresh_sound (i : Machine D H) (s : Sound i) : Sound i.fresh := by
  refine ⟨⟨by show i.st.envs.length < (i.st.envs ++ [_]).length; simp, ?_⟩, ?_⟩
  · intro e en p h hp
    rcases Nat.lt_or_ge e i.st.envs.length with he | he
    · rw [fresh_get i e he] at h
      exact s.wf.parent e en p h hp
    · have h' : (i.st.envs ++ [⟨none, []⟩])[e]? = some en := h
      rw [List.getElem?_append_right he] at h'
      cases hk : e - i.st.envs.length with
      | zero => rw [hk] at h'; simp at h'; rw [← h'] at hp; cases hp
      | succ k => rw [hk] at h'; simp at h'
  · intro nm e he
    obtain ⟨h1, _⟩ := s.pkg nm e he
    refine ⟨by show e < (i.st.envs ++ [_]).length; simp; omega, ?_⟩
    intro hc
    have := fresh_chain i e hc
    omega

/-- existing environments are not changed by what happens in a new one -/
theorem fresh_keeps {i j : Machine D H} (g : Grows i.fresh j) (e : Nat) (he : e < i.st.envs.length) : j.st.envs[e]? = i.st.envs[e]? := by
  rw [← fresh_get i e he]
  refine g.off e ?_ ?_
  · show e < (i.st.envs ++ [_]).length
    simp; omega
  · intro hc
    have := fresh_chain i e hc
    omega

theorem fresh_length (i : Machine D H) : i.fresh.st.envs.length = i.st.envs.length + 1 := by
  show (i.st.envs ++ [_]).length = _
  simp

theorem fine_loadPkg (w : World D H) (name file : String) (lines : List (List Char)) (n : Nat) (hf : w.files file = some lines)
    (hm : Fine w (evalFile w n lines .reset true)) : Fine w (loadPkg name (evalFile w n lines .reset true)) := by
  intro i r i' h s
  have hfresh : (⟨{ i.st with envs := i.st.envs ++ [⟨none, []⟩], cur := i.st.envs.length }, i.pkgs⟩ : Machine D H) = i.fresh := rfl
  rw [loadPkg, hfresh] at h
  cases hmi : evalFile w n lines .reset true i.fresh with
  | none => rw [hmi] at h; cases h
  | some x =>
    obtain ⟨r', j⟩ := x
    rw [hmi] at h
    obtain ⟨g, sj, pj⟩ := hm _ _ j hmi (fresh_sound i s)
    have hlen : i.st.envs.length + 1 ≤ j.st.envs.length := by
      have := g.len
      rwa [fresh_length] at this
    have key : ∀ k : Machine D H, k.st.envs = j.st.envs → k.st.cur = i.st.cur → Grows i k ∧ WF k.st := by
      intro k e1 e2
      refine ⟨⟨e2, by rw [e1]; omega, ?_, ?_⟩, ⟨by rw [e1, e2]; have := s.wf.cur; omega, by rw [e1]; exact sj.wf.parent⟩⟩
      · intro e he; rw [e1, fresh_keeps g e he]
      · intro e he _; rw [e1, fresh_keeps g e he]
    have old : ∀ k : Machine D H, k.st.envs = j.st.envs → k.st.cur = i.st.cur → ∀ nm e, mapGet j.pkgs nm = some e →
        (e < k.st.envs.length ∧ ¬ OnChain k.st.envs k.st.cur e) ∧ (mapGet i.pkgs nm = some e ∨ (i.st.envs.length ≤ e ∧ Loaded w k.st.envs e)) := by
      intro k e1 e2 nm e he
      obtain ⟨gk, wk⟩ := key k e1 e2
      rcases pj nm e he with h' | ⟨h', hl⟩
      · obtain ⟨a, b⟩ := s.pkg nm e h'
        exact ⟨⟨Nat.lt_of_lt_of_le a gk.len, fun hc => b (gk.chain s.wf hc)⟩, .inl h'⟩
      · rw [fresh_length] at h'
        refine ⟨⟨by rw [e1]; exact (sj.pkg nm e he).1, ?_⟩, .inr ⟨by omega, loaded_mono w hl (by rw [e1])⟩⟩
        intro hc
        have := onChain_le s.wf.parent (gk.chain s.wf hc)
        have := s.wf.cur
        omega
    cases r' with
    | error e =>
      cases h
      obtain ⟨gk, wk⟩ := key ⟨{ j.st with cur := i.st.cur }, j.pkgs⟩ rfl rfl
      have o := old ⟨{ j.st with cur := i.st.cur }, j.pkgs⟩ rfl rfl
      exact ⟨gk, ⟨wk, fun nm e he => (o nm e he).1⟩, fun nm e he => (o nm e he).2⟩
    | ok u =>
      cases h
      obtain ⟨gk, wk⟩ := key ⟨{ j.st with cur := i.st.cur }, mapSet j.pkgs name j.st.cur⟩ rfl rfl
      have o := old ⟨{ j.st with cur := i.st.cur }, mapSet j.pkgs name j.st.cur⟩ rfl rfl
      have hcur : j.st.cur = i.st.envs.length := g.cur
      have both : ∀ nm e, mapGet (mapSet j.pkgs name j.st.cur) nm = some e →
          (e < j.st.envs.length ∧ ¬ OnChain j.st.envs i.st.cur e) ∧ (mapGet i.pkgs nm = some e ∨ (i.st.envs.length ≤ e ∧ Loaded w j.st.envs e)) := by
        intro nm e he
        rw [mapGet_set] at he
        split at he
        · cases he
          refine ⟨⟨sj.wf.cur, ?_⟩, .inr ⟨by omega, file, lines, n, i, j, hf, hcur, hmi, rfl⟩⟩
          intro hc
          have := onChain_le s.wf.parent (gk.chain s.wf hc)
          have := s.wf.cur
          omega
        · exact o nm e he
      exact ⟨gk, ⟨wk, fun nm e he => (both nm e he).1⟩, fun nm e he => (both nm e he).2⟩

theorem fine_evalOrLoad (w : World D H) (n : Nat) (hf : ∀ lines, Fine w (evalFile w n lines .reset true)) (p : List (Option (Expr D))) :
    Fine w (evalOrLoad w n (fun lines => evalFile w n lines .reset true) p) := by
  rw [evalOrLoad]
  split
  · exact fine_evalMachine w n p
  · rename_i name file _
    split
    · exact fine_stay w _
    · rename_i lines hl
      cases name with
      | none => exact fine_thenWrite w (hf lines)
      | some pkg => exact fine_thenWrite w (fine_loadPkg w pkg file lines n hl (hf lines))

theorem fine_evalFile (w : World D H) (n : Nat) (lines : List (List Char)) (b : LineBuffer) (ok : Bool) : Fine w (evalFile w n lines b ok) := by
  induction n generalizing lines b ok with
  | zero => exact fine_none w
  | succ n ih =>
    cases lines with
    | nil =>
      rw [evalFile]
      intro i r j h s
      split at h
      all_goals cases h; exact ⟨Grows.refl _, s, fun nm e h => .inl h⟩
    | cons l ls =>
      rw [evalFile]
      split
      · exact fine_stay w _
      · exact ih ls _ _
      · split
        · exact fine_stay w _
        · exact fine_andThen w (fine_evalOrLoad w n (fun lines => ih lines .reset true) _) (ih ls _ _)

theorem fine_evalLine (w : World D H) (n : Nat) (line : List Char) : Fine w (evalLine w n line) := by
  rw [evalLine]
  split
  · exact fine_stay w _
  · split
    · exact fine_stay w _
    · exact fine_evalOrLoad w n (fun lines => fine_evalFile w n lines .reset true) _

theorem sound_init (h : H) : Sound (⟨St.init h, []⟩ : Machine D H) := by
  refine ⟨⟨by simp [St.init], ?_⟩, fun nm e he => by cases he⟩
  intro i en p h1 h2
  cases i with
  | zero => simp [St.init] at h1; subst h1; cases h2
  | succ i => simp [St.init] at h1

theorem register_sound (name : String) (vars : Vars D) (i : Machine D H) (s : Sound i) :
    Sound (registerPackage name vars i) ∧ Grows i (registerPackage name vars i) := by
  have hg : ∀ e, e < i.st.envs.length → (registerPackage name vars i).st.envs[e]? = i.st.envs[e]? := fun e he => List.getElem?_append_left he
  have hl : (registerPackage name vars i).st.envs.length = i.st.envs.length + 1 := by
    show (i.st.envs ++ [_]).length = _
    simp
  have g : Grows i (registerPackage name vars i) := ⟨rfl, by omega, fun e he => by rw [hg e he], fun e he _ => hg e he⟩
  refine ⟨⟨⟨by rw [hl]; exact Nat.lt_succ_of_lt s.wf.cur, ?_⟩, ?_⟩, g⟩
  · intro e en p h hp
    rcases Nat.lt_or_ge e i.st.envs.length with he | he
    · rw [hg e he] at h
      exact s.wf.parent e en p h hp
    · have h' : (i.st.envs ++ [⟨none, vars⟩])[e]? = some en := h
      rw [List.getElem?_append_right he] at h'
      cases hk : e - i.st.envs.length with
      | zero => rw [hk] at h'; simp at h'; rw [← h'] at hp; cases hp
      | succ k => rw [hk] at h'; simp at h'
  · intro nm e he
    have he' : mapGet (mapSet i.pkgs name i.st.envs.length) nm = some e := he
    rw [mapGet_set] at he'
    split at he'
    · cases he'
      refine ⟨by omega, ?_⟩
      intro hc
      have := onChain_le s.wf.parent (g.chain s.wf hc)
      have := s.wf.cur
      omega
    · obtain ⟨a, b⟩ := s.pkg nm e he'
      exact ⟨by omega, fun hc => b (g.chain s.wf hc)⟩

theorem session_sound (w : World D H) (regs : List (String × Vars D)) (i : Machine D H) (h : Session w regs i) : Sound i := by
  induction h with
  | new h => exact sound_init h
  | register regs i name vars _ ih => exact (register_sound name vars i ih).1
  | line regs i n text r j _ he ih => exact (fine_evalLine w n text i r j he ih).2.1

/-- In every session every package is either one registered by Go code, with exactly the registered variables, or the environment of a file
all of whose lines have been evaluated without an error, with the variables that it had at the end of the file.  So a package never appears
half loaded, and nothing that is evaluated later changes its variables. -/
theorem C77_packages (w : World D H) (regs : List (String × Vars D)) (i : Machine D H) (h : Session w regs i) (nm : String) (e : Nat)
    (he : mapGet i.pkgs nm = some e) :
    (∃ vars, (nm, vars) ∈ regs ∧ i.st.envs[e]? = some ⟨none, vars⟩) ∨ Loaded w i.st.envs e := by
  induction h generalizing nm e with
  | new h => cases he
  | register regs i name vars hs ih =>
    have s := session_sound w regs i hs
    have he' : mapGet (mapSet i.pkgs name i.st.envs.length) nm = some e := he
    rw [mapGet_set] at he'
    split at he'
    · rename_i hn
      cases he'
      refine .inl ⟨vars, by rw [hn]; exact List.mem_cons_self, ?_⟩
      show (i.st.envs ++ [⟨none, vars⟩])[i.st.envs.length]? = _
      rw [List.getElem?_append_right (Nat.le_refl _)]
      simp
    · have hg : (registerPackage name vars i).st.envs[e]? = i.st.envs[e]? := List.getElem?_append_left (s.pkg nm e he').1
      rcases ih nm e he' with ⟨vars', h1, h2⟩ | hl
      · exact .inl ⟨vars', List.mem_cons_of_mem _ h1, hg.trans h2⟩
      · exact .inr (loaded_mono w hl hg)
  | line regs i n text r j hs hr ih =>
    have s := session_sound w regs i hs
    obtain ⟨g, sj, p⟩ := fine_evalLine w n text i r j hr s
    rcases p nm e he with h' | ⟨_, hl⟩
    · have hg := g.off e (s.pkg nm e h').1 (s.pkg nm e h').2
      rcases ih nm e h' with ⟨vars', h1, h2⟩ | hl
      · exact .inl ⟨vars', h1, hg.trans h2⟩
      · exact .inr (loaded_mono w hl hg)
    · exact .inr hl

theorem packageVar_congr (w : World D H) (pk pk' : List (String × Nat)) (envs envs' : List (Env D)) (name : String)
    (h1 : mapGet pk' (String.ofList (beforeArrow name.toList)) = mapGet pk (String.ofList (beforeArrow name.toList)))
    (h2 : ∀ e, mapGet pk (String.ofList (beforeArrow name.toList)) = some e → envs'[e]? = envs[e]?) : packageVar w pk' envs' name = packageVar w pk envs name := by
  rw [packageVar, packageVar]
  cases afterArrow name.toList with
  | none => rfl
  | some var =>
    simp only
    split
    · rw [h1]
      cases hp : mapGet pk (String.ofList (beforeArrow name.toList)) with
      | none => rfl
      | some e => simp only [envGet, h2 e hp]
    · rfl

/-- A line of input leaves the variables of all packages as they are, except for packages that are loaded by it; a line that loads nothing
leaves all of them as they are. -/
theorem C77_constant (w : World D H) (regs : List (String × Vars D)) (i : Machine D H) (h : Session w regs i) (n : Nat) (text : List Char)
    (r : Except Fail Unit) (j : Machine D H) (hr : evalLine w n text i = some (r, j)) :
    (∀ name, mapGet j.pkgs (String.ofList (beforeArrow name.toList)) = mapGet i.pkgs (String.ofList (beforeArrow name.toList)) →
      packageVar w j.pkgs j.st.envs name = packageVar w i.pkgs i.st.envs name) ∧
    ((∀ ts p, scanLine w.ctx text = .ok ts → parseProgram w.pctx ts = .ok p → w.load p = none) → j.pkgs = i.pkgs) := by
  have s := session_sound w regs i h
  obtain ⟨g, _, _⟩ := fine_evalLine w n text i r j hr s
  constructor
  · intro name hn
    exact packageVar_congr w i.pkgs j.pkgs i.st.envs j.st.envs name hn (fun e he => g.off e (s.pkg _ e he).1 (s.pkg _ e he).2)
  · intro hl
    rw [evalLine] at hr
    cases hs : scanLine w.ctx text with
    | error e => rw [hs] at hr; cases hr; rfl
    | ok ts =>
      rw [hs] at hr
      simp only at hr
      cases hp : parseProgram w.pctx ts with
      | error e => rw [hp] at hr; cases hr; rfl
      | ok p =>
        rw [hp] at hr
        simp only [evalOrLoad, hl ts p hs hp, evalMachine] at hr
        split at hr
        · cases hr
        · cases hr; rfl

/-- Loading a file as a package: the file is evaluated in a new empty environment.  Whatever the outcome, the current environment is the same
as before and no environment that existed before has changed.  If all lines succeed the name stands for the new environment, otherwise no
package is stored for it by this load. -/
theorem C77_load (w : World D H) (regs : List (String × Vars D)) (i : Machine D H) (h : Session w regs i) (n : Nat) (text : List Char)
    (ts : List Token) (p : List (Option (Expr D))) (nm file : String) (lines : List (List Char))
    (h1 : scanLine w.ctx text = .ok ts) (h2 : parseProgram w.pctx ts = .ok p) (h3 : w.load p = some (some nm, file)) (h4 : w.files file = some lines)
    (r : Except Fail Unit) (i' : Machine D H) (hr : evalLine w n text i = some (r, i')) :
    i'.st.cur = i.st.cur ∧ (∀ e, e < i.st.envs.length → i'.st.envs[e]? = i.st.envs[e]?) ∧
    ∃ j, evalFile w n lines .reset true i.fresh = some (r, j) ∧ i'.st.envs = j.st.envs ∧
      (∀ k, nm ≠ k → mapGet i'.pkgs k = mapGet j.pkgs k) ∧
      (r = .ok () → mapGet i'.pkgs nm = some i.st.envs.length ∧
        ∀ var : List Char, ∀ name : String, name.toList = nm.toList ++ '→' :: var → '→' ∉ nm.toList → w.lower nm.toList →
          packageVar w i'.pkgs i'.st.envs name = envGet j.st.envs j.st.cur (String.ofList var)) ∧
      (r ≠ .ok () → i'.pkgs = j.pkgs) := by
  have s := session_sound w regs i h
  have hfresh : (⟨{ i.st with envs := i.st.envs ++ [⟨none, []⟩], cur := i.st.envs.length }, i.pkgs⟩ : Machine D H) = i.fresh := rfl
  simp only [evalLine, h1, h2, evalOrLoad, h3, h4, thenWrite, loadPkg, hfresh] at hr
  cases hmi : evalFile w n lines .reset true i.fresh with
  | none => rw [hmi] at hr; cases hr
  | some x =>
    obtain ⟨r', j⟩ := x
    rw [hmi] at hr
    have g := (fine_evalFile w n lines .reset true _ _ _ hmi (fresh_sound i s)).1
    cases r' with
    | error e =>
      cases hr
      exact ⟨rfl, fun e he => fresh_keeps g e he, j, rfl, rfl, fun _ _ => rfl, fun h => (by cases h), fun _ => rfl⟩
    | ok u =>
      cases hr
      have hcur : j.st.cur = i.st.envs.length := g.cur
      have hset : ∀ k, mapGet (mapSet j.pkgs nm j.st.cur) k = if nm = k then some j.st.cur else mapGet j.pkgs k := fun k => mapGet_set _ _ _ _
      refine ⟨rfl, fun e he => fresh_keeps g e he, j, rfl, rfl, ?_, ?_, fun h => absurd rfl h⟩
      · intro k hk
        show mapGet (mapSet j.pkgs nm j.st.cur) k = _
        rw [hset, if_neg hk]
      · intro _
        refine ⟨?_, ?_⟩
        · show mapGet (mapSet j.pkgs nm j.st.cur) nm = _
          rw [hset, if_pos rfl, hcur]
        · intro var name hn hno hlow
          have hb : ∀ a : List Char, '→' ∉ a → beforeArrow (a ++ '→' :: var) = a ∧ afterArrow (a ++ '→' :: var) = some var := by
            intro a
            induction a with
            | nil => intro _; exact ⟨rfl, rfl⟩
            | cons c a ih =>
              intro hc
              simp only [List.mem_cons, not_or] at hc
              rw [List.cons_append, beforeArrow, afterArrow, if_neg (fun h => hc.1 h.symm), if_neg (fun h => hc.1 h.symm), (ih hc.2).1, (ih hc.2).2]
              exact ⟨rfl, rfl⟩
          obtain ⟨e1, e2⟩ := hb nm.toList hno
          show packageVar w (mapSet j.pkgs nm j.st.cur) j.st.envs name = _
          rw [packageVar, hn, e1, e2]
          simp only [hlow, if_true, String.ofList_toList]
          rw [hset, if_pos rfl]

end Iv

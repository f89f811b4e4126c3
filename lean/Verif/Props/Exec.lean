import Verif.Model.Exec
import Verif.Props.Mount
import Verif.Props.VarFs
/-
C103: programs of the operating system and the environment as an object.
-/
namespace Iv
variable {F V : Type}

/-- the program and its arguments: a single string, or an array whose elements are all strings -/
inductive Names : ExecArg → List (List Char) → Prop
  | single (s) : Names (.single s) [s]
  | strings (l) : Names (.strings l) l
  | mixed (l) : Names (.mixed (l.map some)) l

theorem mapM_id_some {β : Type} (l : List (Option β)) (r : List β) : l.mapM id = some r ↔ l = r.map some := by
  induction l generalizing r with
  | nil =>
    constructor
    · intro h; cases h; rfl
    · intro h; cases r with
      | nil => rfl
      | cons => cases h
  | cons x l ih =>
    rw [List.mapM_cons]
    cases x with
    | none =>
      constructor
      · intro h; cases h
      · intro h; cases r with
        | nil => cases h
        | cons => cases h
    | some x =>
      simp only [id, Option.pure_def, Option.bind_eq_bind, Option.bind_some]
      constructor
      · intro h
        cases hl : l.mapM id with
        | none => rw [hl] at h; cases h
        | some r' =>
          rw [hl] at h
          cases h
          rw [(ih r').1 hl]; rfl
      · intro h
        cases r with
        | nil => cases h
        | cons y r =>
          rw [List.map_cons] at h
          injection h with h1 h2
          cases h1
          rw [(ih r).2 h2]; rfl

theorem execStrings_iff (a : ExecArg) (l : List (List Char)) : execStrings a = some l ↔ Names a l := by
  constructor
  · intro h
    cases a with
    | single s => cases h; exact .single s
    | strings l' => cases h; exact .strings _
    | mixed l' =>
      have := (mapM_id_some l' l).1 h
      subst this
      exact .mixed l
    | other => cases h
  · intro h
    cases h with
    | single => rfl
    | strings => rfl
    | mixed => exact (mapM_id_some _ _).2 rfl

/-- The place of a program whose name begins with a slash: its path inside of the directory that serves its name. -/
def Located (osRoot : F → Option (List Char)) (tab : List (MPoint F)) (name program : List Char) : Prop :=
  ∃ mpt rel fs root, name = mpt ++ rel ∧ ServedBy tab name ⟨mpt, fs⟩ ∧ osRoot fs = some root ∧ program = pathText (osPath root rel)

theorem execPath_iff (osRoot : F → Option (List Char)) (tab : List (MPoint F)) (name q : List Char) :
    execPath osRoot tab name = .ok q ↔ Located osRoot tab name q := by
  have ho := (C74_open tab name).1
  unfold execPath
  unfold openFs at ho
  cases hl : lookupFs tab name with
  | error e =>
    rw [hl] at ho
    constructor
    · intro h; cases h
    · rintro ⟨mpt, rel, fs, root, h1, h2, _⟩
      have := (ho fs rel mpt).2 ⟨h1, h2⟩
      cases this
  | ok x =>
    obtain ⟨fs, mpt⟩ := x
    rw [hl] at ho
    have h0 := (ho fs (trimPrefix name mpt) mpt).1 rfl
    constructor
    · intro h
      cases hr : osRoot fs with
      | none => simp only [hr] at h; cases h
      | some root =>
        simp only [hr] at h
        cases h
        exact ⟨mpt, _, fs, root, h0.1, h0.2, hr, rfl⟩
    · rintro ⟨mpt', rel, fs', root, h1, h2, h3, rfl⟩
      have := (ho fs' rel mpt').2 ⟨h1, h2⟩
      simp only [Except.ok.injEq, Prod.mk.injEq] at this
      obtain ⟨rfl, rfl, rfl⟩ := this
      simp only [h3]

/-- the argument after the call: the first string of a `StringArray` is replaced -/
def ArgReplaced (q : List Char) (arg arg' : ExecArg) : Prop :=
  (∃ p as, arg = .strings (p :: as) ∧ arg' = .strings (q :: as)) ∨ ((∀ l, arg ≠ .strings l) ∧ arg' = arg)

theorem hasPrefix_slash (p : List Char) : hasPrefix p ['/'] = true ↔ ['/'] <+: p := by
  cases p with
  | nil => simp [hasPrefix]
  | cons c p =>
    by_cases h : c = '/'
    · subst h; simp [hasPrefix]
    · simp only [hasPrefix, if_neg h, Bool.false_eq_true, false_iff]
      rintro ⟨t, ht⟩
      injection ht with h1
      exact h h1.symm

/-- C103: a program is started exactly if its argument is a string or an array of strings with a first element, and this, if it begins with a
slash, is the name of a file in a directory of the operating system; it gets the other strings as arguments and the right argument as input. -/
theorem C103_started (osRoot : F → Option (List Char)) (tab : List (MPoint F)) (arg arg' : ExecArg) (input : Option V) (c : Started V) :
    execCall osRoot tab arg input = (.ok c, arg') ↔
      ∃ p as, Names arg (p :: as) ∧ c.args = as ∧ c.stdin = input ∧
        ((¬ ['/'] <+: p ∧ c.program = p ∧ arg' = arg) ∨ (['/'] <+: p ∧ Located osRoot tab p c.program ∧ ArgReplaced c.program arg arg')) := by
  have hstore : ∀ q p as, Names arg (p :: as) → (execStore q arg = arg' ↔ ArgReplaced q arg arg') := by
    intro q p as hn
    cases hn with
    | single => simp [execStore, ArgReplaced, eq_comm]
    | strings =>
      simp only [execStore, ArgReplaced]
      constructor
      · rintro rfl; exact .inl ⟨p, as, rfl, rfl⟩
      · rintro (⟨p', as', h, rfl⟩ | ⟨h, _⟩)
        · cases h; rfl
        · exact absurd rfl (h _)
    | mixed => simp [execStore, ArgReplaced, eq_comm]
  unfold execCall
  constructor
  · intro h
    cases hs : execStrings arg with
    | none => simp only [hs] at h; cases h
    | some l =>
      cases l with
      | nil => simp only [hs] at h; cases h
      | cons p as =>
        simp only [hs] at h
        have hn := (execStrings_iff arg _).1 hs
        refine ⟨p, as, hn, ?_⟩
        by_cases hp : hasPrefix p ['/'] = true
        · rw [if_pos hp] at h
          cases hq : execPath osRoot tab p with
          | error e => simp only [hq] at h; cases h
          | ok q =>
            simp only [hq, Prod.mk.injEq, Except.ok.injEq] at h
            obtain ⟨rfl, h2⟩ := h
            exact ⟨rfl, rfl, .inr ⟨(hasPrefix_slash p).1 hp, (execPath_iff _ _ _ _).1 hq, (hstore q p as hn).1 h2⟩⟩
        · rw [if_neg hp] at h
          simp only [Prod.mk.injEq, Except.ok.injEq] at h
          obtain ⟨rfl, rfl⟩ := h
          exact ⟨rfl, rfl, .inl ⟨fun hh => hp ((hasPrefix_slash p).2 hh), rfl, rfl⟩⟩
  · rintro ⟨p, as, hn, h1, h2, h⟩
    simp only [(execStrings_iff arg _).2 hn]
    obtain ⟨program, args, stdin⟩ := c
    simp only at h1 h2 h
    subst h1 h2
    rcases h with ⟨hp, h3, rfl⟩ | ⟨hp, hl, hr⟩
    · rw [if_neg (fun hh => hp ((hasPrefix_slash p).1 hh)), h3]
    · rw [if_pos ((hasPrefix_slash p).2 hp)]
      simp only [(execPath_iff _ _ _ _).2 hl, (hstore program p args hn).2 hr]

/-- C103: a call that fails changes nothing. -/
theorem C103_failed (osRoot : F → Option (List Char)) (tab : List (MPoint F)) (arg arg' : ExecArg) (input : Option V) (e : Fail)
    (h : execCall osRoot tab arg input = (.error e, arg')) : arg' = arg := by
  unfold execCall at h
  split at h
  · cases h; rfl
  · cases h; rfl
  · split at h
    · split at h
      · cases h; rfl
      · cases h
    · cases h

/-- C103: a name without ".." is that of a file inside of the mounted directory: the parts of the directory followed by those of the name. -/
theorem C103_inside (root rel : List Char) (habs : ['/'] <+: root) (hroot : ∀ p ∈ splitSlash root, p ≠ ['.', '.'])
    (hrel : ∀ p ∈ splitSlash rel, p ≠ ['.', '.']) :
    pathText (osPath root rel) = '/' :: (List.intersperse ['/']
      ((splitSlash root).filter (fun p => p ≠ [] ∧ p ≠ ['.']) ++ (splitSlash rel).filter (fun p => p ≠ [] ∧ p ≠ ['.']))).flatten := by
  rw [← C75_inside root rel hroot hrel]
  have : (osPath root rel).1 = true := (hasPrefix_slash root).2 habs
  unfold pathText
  rw [if_pos this]

/-- C103, exception: a variable with the strings of a program keeps the relocated name; a second call relocates it again.  Here `/` is the
directory `/opt`: `A←"/bin/ls" "-l"` starts `/opt/bin/ls` and then `/opt/opt/bin/ls`. -/
theorem C103_second_call :
    let tab : List (MPoint (List Char)) := [⟨"/".toList, "/opt".toList⟩]
    let first := execCall (V := Unit) some tab (.strings ["/bin/ls".toList, "-l".toList]) none
    let second := execCall (V := Unit) some tab first.2 none
    first = (.ok ⟨"/opt/bin/ls".toList, ["-l".toList], none⟩, .strings ["/opt/bin/ls".toList, "-l".toList]) ∧
      second.1 = .ok ⟨"/opt/opt/bin/ls".toList, ["-l".toList], none⟩ := by
  decide +kernel

/-- a single string can be used again and again -/
example :
    let tab : List (MPoint (List Char)) := [⟨"/".toList, "/opt".toList⟩]
    execCall (V := Unit) some tab (.single "/bin/ls".toList) none = (.ok ⟨"/opt/bin/ls".toList, [], none⟩, .single "/bin/ls".toList) ∧
      execCall some tab (.mixed [some "cat".toList]) (some 3) = (.ok ⟨"cat".toList, [], some 3⟩, .mixed [some "cat".toList]) ∧
      (execCall (V := Unit) some tab (.mixed [some "cat".toList, none]) none).1 = .error .err ∧
      (execCall (V := Unit) (fun _ => none) tab (.single "/bin/ls".toList) none).1 = .error .err := by
  decide +kernel

/-! ### The environment -/

theorem mapGet_isSome (env : List (String × String)) (k : String) : (mapGet env k).isSome ↔ k ∈ envKeys env := by
  induction env with
  | nil => simp [mapGet, envKeys]
  | cons e env ih =>
    rw [mapGet, envKeys, List.map_cons, List.mem_cons]
    by_cases h : e.1 = k
    · simp [h]
    · rw [if_neg h, ih]
      exact ⟨.inr, fun hh => hh.resolve_left (fun e => h e.symm)⟩

theorem mapSet_keys_nodup (env : List (String × String)) (k v : String) (h : (envKeys env).Nodup) : (envKeys (mapSet env k v)).Nodup := by
  have hmem : ∀ e : List (String × String), ∀ x, x ∈ envKeys (mapSet e k v) → x = k ∨ x ∈ envKeys e := by
    intro e
    induction e with
    | nil => intro x hx; simpa [mapSet, envKeys] using hx
    | cons a e ih =>
      intro x hx
      rw [mapSet] at hx
      split at hx
      · exact .inr hx
      · rcases List.mem_cons.1 hx with rfl | hx
        · exact .inr (List.mem_cons_self ..)
        · rcases ih x hx with rfl | hx
          · exact .inl rfl
          · exact .inr (List.mem_cons_of_mem _ hx)
  induction env with
  | nil => simp [mapSet, envKeys]
  | cons a env ih =>
    rw [mapSet]
    split
    · exact h
    · rename_i hne
      rw [envKeys, List.map_cons, List.nodup_cons] at h ⊢
      refine ⟨fun hm => ?_, ih h.2⟩
      rcases hmem env _ hm with e | hm
      · exact hne e
      · exact h.1 hm

/-- C103: the keys of the environment are exactly the names with a value, each of them once after every assignment. -/
theorem C103_keys (env : List (String × String)) :
    (∀ k, k ∈ envKeys env ↔ ∃ v, envAt env (.str k) = some v) ∧
      ((envKeys env).Nodup → ∀ k v env', envSet env k v = .ok env' → (envKeys env').Nodup) := by
  refine ⟨fun k => ?_, fun hn k v env' h => ?_⟩
  · rw [← mapGet_isSome, Option.isSome_iff_exists]; rfl
  · cases k with
    | other => cases h
    | str k =>
      cases v with
      | other => cases h
      | str v =>
        simp only [envSet, setenv] at h
        split at h
        · cases h
        · split at h
          · cases h
          · split at h
            · cases h
            · cases h; exact mapSet_keys_nodup env k v hn

/-- C103: an assignment to the environment succeeds exactly for strings that the system accepts as a name and a value; the value is then
found at this name, all others are as before. -/
theorem C103_set (env : List (String × String)) (k v : EnvVal) :
    (∀ env', envSet env k v = .ok env' → ∃ n s, k = .str n ∧ v = .str s ∧ envAt env' k = some s ∧
      ∀ m, m ≠ n → envAt env' (.str m) = envAt env (.str m)) ∧
    ((∃ env', envSet env k v = .ok env') ↔ ∃ n s, k = .str n ∧ v = .str s ∧
      n ≠ "" ∧ '=' ∉ n.toList ∧ Char.ofNat 0 ∉ n.toList ∧ Char.ofNat 0 ∉ s.toList) := by
  cases k with
  | other => simp [envSet]
  | str n =>
    cases v with
    | other => simp [envSet]
    | str s =>
      have h := C85_environment env n "" [s]
      have hj : String.join [s] = s := by simp [String.join]
      have hw : writeEnv env n [s] = setenv env n s := by rw [writeEnv, hj]
      rw [hw, hj] at h
      refine ⟨fun env' he => ⟨n, s, rfl, rfl, ?_, ?_⟩, ?_⟩
      · have h1 := (h.1 env' he).1
        have hn : n ≠ "" := (h.2.1 ⟨env', he⟩).1
        simp only [openEnv, if_neg hn] at h1
        show mapGet env' n = some s
        cases hg : mapGet env' n with
        | none => rw [hg] at h1; cases h1
        | some x => rw [hg] at h1; cases h1; rfl
      · exact (h.1 env' he).2
      · simp only [envSet, h.2, EnvVal.str.injEq]
        constructor
        · intro hh; exact ⟨n, s, rfl, rfl, hh⟩
        · rintro ⟨_, _, rfl, rfl, hh⟩; exact hh

/-- C103, exception: a key that is no string is not a key, but has a value, the empty string. -/
theorem C103_other_key (env : List (String × String)) : envAt env .other = some "" := rfl

example : envSet [("A", "1")] (.str "B") (.str "2") = .ok [("A", "1"), ("B", "2")] ∧ envAt [("A", "1"), ("B", "2")] (.str "B") = some "2" ∧
    envAt [("A", "1")] (.str "C") = none ∧ envSet [] (.str "A=") (.str "") = .error .err := by decide +kernel

end Iv

import Verif.Model.Xgo
import Verif.Props.Dict
import Mathlib.Data.List.Forall2
/-
C79: values travel between APL and Go without change.
-/
namespace Iv
variable {F C : Type}

/-! ### Specification -/

/-- Go values of the type that can be exchanged in both directions: numbers, strings, structs and slices of them, to any depth.  There is no uint. -/
inductive Exchange : GV F C → GT → Prop
  | int (i : Int) : Exchange (.int i) .int
  | float (f : F) : Exchange (.float f) .float
  | complex (c : C) : Exchange (.complex c) .complex
  | str (s : String) : Exchange (.str s) .str
  | struct (n : String) (loc : Nat) : Exchange (.struct n loc) (.struct n)
  | slice {e : GT} {vs : List (GV F C)} : (∀ v ∈ vs, Exchange v e) → Exchange (.slice e vs) (.slice e)

/-- the APL value `v` is the Go value `g`: numbers, strings and structs are themselves, slices are arrays or lists with the same elements in the same order;
the shape of the array is lost. -/
inductive Stands : XV F C → GV F C → Prop
  | int (i : Int) : Stands (.int i) (.int i)
  | float (f : F) : Stands (.float f) (.float f)
  | complex (c : C) : Stands (.complex c) (.complex c)
  | str (s : String) : Stands (.str s) (.str s)
  | ref (n : String) (loc : Nat) : Stands (.ref n loc) (.struct n loc)
  | empty (e : GT) : Stands .empty (.slice e [])
  | arr {shape : List Nat} {e : GT} {vs : List (XV F C)} {gs : List (GV F C)} : List.Forall₂ Stands vs gs → Stands (.arr shape vs) (.slice e gs)
  | list {e : GT} {vs : List (XV F C)} {gs : List (GV F C)} : List.Forall₂ Stands vs gs → Stands (.list vs) (.slice e gs)

/-- the arguments that a Go function with parameters of the types `ts` gets -/
inductive Passed : List GT → Option (XV F C) → XV F C → List (GV F C) → Prop
  | none (l : Option (XV F C)) (r : XV F C) : Passed [] l r []
  | right {t : GT} {l : Option (XV F C)} {r : XV F C} {g : GV F C} : Stands r g → Exchange g t → Passed [t] l r [g]
  | both {t u : GT} {l r : XV F C} {g h : GV F C} : Stands r g → Exchange g t → Stands l h → Exchange h u → Passed [t, u] (some l) r [g, h]
  | vector {ts : List GT} {shape : List Nat} {vs : List (XV F C)} {gs : List (GV F C)} : 2 ≤ ts.length → shape.length ≤ 1 →
      List.Forall₂ Stands vs gs → List.Forall₂ Exchange gs ts → Passed ts none (.arr shape vs) gs
  | list {ts : List GT} {vs : List (XV F C)} {gs : List (GV F C)} : 2 ≤ ts.length →
      List.Forall₂ Stands vs gs → List.Forall₂ Exchange gs ts → Passed ts none (.list vs) gs

/-! ### Proofs -/

theorem convertAll_ok : ∀ (gs : List (GV F C)), (∀ g ∈ gs, ∃ v, convertGo true g = .ok v ∧ Stands v g) → ∃ vs, convertAll gs = .ok vs ∧ List.Forall₂ Stands vs gs
  | [], _ => ⟨[], rfl, .nil⟩
  | g :: gs, h => by
    obtain ⟨v, h1, h2⟩ := h g (List.mem_cons_self ..)
    obtain ⟨vs, h3, h4⟩ := convertAll_ok gs (fun g' hg => h g' (List.mem_cons_of_mem _ hg))
    exact ⟨v :: vs, by simp only [convertAll, h1, h3], .cons h2 h4⟩

/-- Every Go value that can be exchanged becomes an APL value that stands for it. -/
theorem C79_to_apl {g : GV F C} {t : GT} (h : Exchange g t) : ∃ v, convertGo true g = .ok v ∧ Stands v g := by
  induction h with
  | int i => exact ⟨_, rfl, .int i⟩
  | float i => exact ⟨_, rfl, .float i⟩
  | complex i => exact ⟨_, rfl, .complex i⟩
  | str i => exact ⟨_, rfl, .str i⟩
  | struct n l => exact ⟨_, rfl, .ref n l⟩
  | @slice e vs hv ih =>
    obtain ⟨xs, h1, h2⟩ := convertAll_ok vs ih
    exact ⟨.arr [vs.length] xs, by simp only [convertGo, h1], .arr h2⟩

theorem exportAll_ok (e : GT) {vs : List (XV F C)} {gs : List (GV F C)} (h : List.Forall₂ Stands vs gs)
    (hg : ∀ g ∈ gs, ∀ v, Stands v g → exportGo v e = .ok g) : exportAll vs e = .ok gs := by
  induction h with
  | nil => rfl
  | @cons v g vs gs h1 _ ih =>
    have e1 := hg g (List.mem_cons_self ..) v h1
    have e2 := ih (fun g' hg' => hg g' (List.mem_cons_of_mem _ hg'))
    simp only [exportAll, e1, e2]

/-- An APL value that stands for a Go value becomes this value. -/
theorem C79_to_go {g : GV F C} {t : GT} (h : Exchange g t) : ∀ {v : XV F C}, Stands v g → exportGo v t = .ok g := by
  induction h with
  | int i => intro v hv; cases hv; rfl
  | float i => intro v hv; cases hv; rfl
  | complex i => intro v hv; cases hv; rfl
  | str i => intro v hv; cases hv; rfl
  | struct n l => intro v hv; cases hv; simp [exportGo]
  | @slice e vs _ ih =>
    intro v hv
    cases hv with
    | empty => rfl
    | arr h => simp only [exportGo, exportAll_ok e h (fun g hg v hv => ih g hg hv)]
    | list h => simp only [exportGo, exportAll_ok e h (fun g hg v hv => ih g hg hv)]

/-- Go to APL and back gives the same value. -/
theorem C79_round_trip {g : GV F C} {t : GT} (h : Exchange g t) : ∃ v, convertGo true g = .ok v ∧ exportGo v t = .ok g := by
  obtain ⟨v, h1, h2⟩ := C79_to_apl h
  exact ⟨v, h1, C79_to_go h h2⟩

/-- a uint cannot be given back -/
theorem C79_uint (n : Nat) (hn : n < 2 ^ 63) :
    convertGo true (.uint n : GV F C) = .ok (.int n) ∧ exportGo (.int n : XV F C) .uint = .error .err := by
  refine ⟨?_, rfl⟩
  simp only [convertGo, if_pos hn]

/-- a uint that is too large for an integer of 64 bits becomes negative -/
theorem C79_uint_wraps (n : Nat) (hn : 2 ^ 63 ≤ n) (hn' : n < 2 ^ 64) :
    ∃ i : Int, convertGo true (.uint n : GV F C) = .ok (.int i) ∧ i < 0 ∧ -2 ^ 63 ≤ i ∧ (2 ^ 64 : Int) ∣ n - i := by
  refine ⟨(n : Int) - 2 ^ 64, ?_, by omega, by omega, by omega⟩
  simp only [convertGo, if_neg (show ¬ n < 2 ^ 63 by omega)]

theorem exportGo_sound (t : GT) : ∀ {v : XV F C} {g : GV F C}, exportGo v t = .ok g → Stands v g ∧ Exchange g t := by
  induction t with
  | int => intro v g h; cases v <;> simp [exportGo] at h; subst h; exact ⟨.int _, .int _⟩
  | float => intro v g h; cases v <;> simp [exportGo] at h; subst h; exact ⟨.float _, .float _⟩
  | complex => intro v g h; cases v <;> simp [exportGo] at h; subst h; exact ⟨.complex _, .complex _⟩
  | str => intro v g h; cases v <;> simp [exportGo] at h; subst h; exact ⟨.str _, .str _⟩
  | uint => intro v g h; cases v <;> simp [exportGo] at h
  | other => intro v g h; cases v <;> simp [exportGo] at h
  | struct n =>
    intro v g h
    cases v with
    | ref n' l =>
      simp only [exportGo] at h
      split at h
      · rename_i hn
        subst hn
        cases h
        exact ⟨.ref _ _, .struct _ _⟩
      · cases h
    | _ => simp [exportGo] at h
  | slice e ih =>
    have all : ∀ (vs : List (XV F C)) (gs : List (GV F C)), exportAll vs e = .ok gs → List.Forall₂ Stands vs gs ∧ ∀ g ∈ gs, Exchange g e := by
      intro vs
      induction vs with
      | nil => intro gs h; simp [exportAll] at h; subst h; exact ⟨.nil, by simp⟩
      | cons v vs ihv =>
        intro gs h
        simp only [exportAll] at h
        split at h
        · cases h
        rename_i g hg
        split at h
        · cases h
        rename_i gs' hgs
        cases h
        obtain ⟨h1, h2⟩ := ih hg
        obtain ⟨h3, h4⟩ := ihv _ hgs
        exact ⟨.cons h1 h3, by intro x hx; rcases List.mem_cons.1 hx with rfl | hx; exacts [h2, h4 x hx]⟩
    intro v g h
    cases v with
    | arr shape vs =>
      simp only [exportGo] at h
      split at h
      · rename_i gs hgs
        cases h
        obtain ⟨h1, h2⟩ := all _ _ hgs
        exact ⟨.arr h1, .slice h2⟩
      · cases h
    | list vs =>
      simp only [exportGo] at h
      split at h
      · rename_i gs hgs
        cases h
        obtain ⟨h1, h2⟩ := all _ _ hgs
        exact ⟨.list h1, .slice h2⟩
      · cases h
    | empty => simp [exportGo] at h; subst h; exact ⟨.empty e, .slice (by simp)⟩
    | _ => simp [exportGo] at h

/-- If an APL value is accepted for a Go type, then the Go value is what it stands for, and has this type. -/
theorem C79_accepted {v : XV F C} {t : GT} {g : GV F C} (h : exportGo v t = .ok g) : Stands v g ∧ Exchange g t := exportGo_sound t h

theorem exportEach_ok {vs : List (XV F C)} {gs : List (GV F C)} (h : List.Forall₂ Stands vs gs) : ∀ {ts : List GT}, List.Forall₂ Exchange gs ts →
    exportEach vs ts = .ok gs := by
  induction h with
  | nil => intro ts ht; cases ht; rfl
  | cons h1 _ ih =>
    intro ts ht
    cases ht with
    | cons ht hts => simp only [exportEach, C79_to_go ht h1, ih hts]; rfl

theorem exportEach_sound : ∀ {vs : List (XV F C)} {ts : List GT} {gs : List (GV F C)}, vs.length = ts.length → exportEach vs ts = .ok gs →
    List.Forall₂ Stands vs gs ∧ List.Forall₂ Exchange gs ts
  | [], [], gs, _, h => by simp [exportEach] at h; subst h; exact ⟨.nil, .nil⟩
  | [], _ :: _, _, hl, _ => by simp at hl
  | _ :: _, [], _, hl, _ => by simp at hl
  | v :: vs, t :: ts, gs, hl, h => by
    simp only [exportEach, bind, Except.bind] at h
    cases h1 : exportGo v t with
    | error x => rw [h1] at h; cases h
    | ok g =>
      rw [h1] at h
      simp only at h
      cases h2 : exportEach vs ts with
      | error x => rw [h2] at h; cases h
      | ok gs' =>
        rw [h2] at h
        cases h
        obtain ⟨a, b⟩ := exportEach_sound (by simpa using hl) h2
        obtain ⟨c, d⟩ := exportGo_sound t h1
        exact ⟨.cons c a, .cons d b⟩

/-- The Go function gets exactly its arguments. -/
theorem C79_arguments (ts : List GT) (l : Option (XV F C)) (r : XV F C) (gs : List (GV F C)) : exportArgs ts l r = .ok gs ↔ Passed ts l r gs := by
  constructor
  · intro h
    match ts, h with
    | [], h => simp [exportArgs] at h; subst h; exact .none l r
    | [t], h =>
      simp only [exportArgs, bind, Except.bind] at h
      cases h1 : exportGo r t with
      | error x => rw [h1] at h; cases h
      | ok g =>
        rw [h1] at h; cases h
        exact .right (exportGo_sound t h1).1 (exportGo_sound t h1).2
    | t0 :: t1 :: ts, h =>
      cases l with
      | none =>
        cases r with
        | arr shape vs =>
          simp only [exportArgs, XV.array] at h
          split at h
          · cases h
          split at h
          · cases h
          rename_i h1 h2
          obtain ⟨a, b⟩ := exportEach_sound (by simpa using h2) h
          exact .vector (by simp) (by omega) a b
        | list vs =>
          simp only [exportArgs, XV.array] at h
          split at h
          · cases h
          split at h
          · cases h
          rename_i h1 h2
          obtain ⟨a, b⟩ := exportEach_sound (by simpa using h2) h
          exact .list (by simp) a b
        | _ => simp [exportArgs, XV.array] at h
      | some l =>
        cases ts with
        | cons _ _ => simp [exportArgs] at h
        | nil =>
          simp only [exportArgs, bind, Except.bind] at h
          cases h1 : exportGo r t0 with
          | error x => rw [h1] at h; cases h
          | ok g =>
            rw [h1] at h
            simp only at h
            cases h2 : exportGo l t1 with
            | error x => rw [h2] at h; cases h
            | ok g' =>
              rw [h2] at h; cases h
              exact .both (exportGo_sound _ h1).1 (exportGo_sound _ h1).2 (exportGo_sound _ h2).1 (exportGo_sound _ h2).2
  · intro h
    cases h with
    | none => rfl
    | right a b => simp only [exportArgs, C79_to_go b a]; rfl
    | both a b c d => simp only [exportArgs, C79_to_go b a, C79_to_go d c]; rfl
    | @vector ts shape vs gs hn hs a b =>
      match ts, hn, b with
      | t0 :: t1 :: ts, _, b =>
        have e := exportEach_ok a b
        have hl : vs.length = (t0 :: t1 :: ts).length := a.length_eq.trans b.length_eq
        simp only [exportArgs, XV.array]
        rw [if_neg (by omega), if_neg (by rw [hl]; simp), e]
    | @list ts vs gs hn a b =>
      match ts, hn, b with
      | t0 :: t1 :: ts, _, b =>
        have e := exportEach_ok a b
        have hl : vs.length = (t0 :: t1 :: ts).length := a.length_eq.trans b.length_eq
        simp only [exportArgs, XV.array]
        rw [if_neg (by simp), if_neg (by rw [hl]; simp), e]

variable {m : Type → Type} [Monad m] [LawfulMonad m]

/-- A call with acceptable arguments calls the Go function once with them, and gives its result, if it has not returned an error. -/
theorem C79_call {ts : List GT} {l : Option (XV F C)} {r : XV F C} {gs : List (GV F C)} (fn : List (GV F C) → ExceptT Fail m (List (GV F C) × Option Bool))
    (h : Passed ts l r gs) : callGo ts fn l r = fn gs >>= fun out => ofRes (goResult out) := by
  unfold callGo
  rw [(C79_arguments ts l r gs).2 h, ofRes_ok, pure_bind]

/-- A call with other arguments fails and does not call the function. -/
theorem C79_not_called {ts : List GT} {l : Option (XV F C)} {r : XV F C} (h : ¬ ∃ gs, Passed ts l r gs) :
    ∃ e, ∀ fn : List (GV F C) → ExceptT Fail m (List (GV F C) × Option Bool), callGo ts fn l r = throw e := by
  cases he : exportArgs ts l r with
  | ok gs => exact absurd ⟨gs, (C79_arguments ts l r gs).1 he⟩ h
  | error e =>
    refine ⟨e, fun fn => ?_⟩
    unfold callGo
    rw [he, ofRes_bind_error]

theorem convertGo_data {g : GV F C} {t : GT} (h : Exchange g t) (hs : ∀ n, t ≠ .struct n) : ∃ v, convertGo false g = .ok v ∧ Stands v g := by
  obtain ⟨v, h1, h2⟩ := C79_to_apl h
  refine ⟨v, ?_, h2⟩
  rw [← h1]
  cases h with
  | struct n l => exact absurd rfl (hs n)
  | _ => simp only [convertGo]

/-- The result of a call: an error of the function is the error of the call, no result is the empty array, one result is its value, and several
are a list of the values in order; the nil error is not one of them. -/
theorem C79_result (outs : List (GV F C)) (us : List GT) (h : List.Forall₂ Exchange outs us) (hs : ∀ n, GT.struct n ∉ us) (err : Option Bool) :
    (err = some true → goResult (outs, err) = .error .err) ∧
    (err ≠ some true → ∃ v, goResult (outs, err) = .ok v ∧
      ((outs = [] ∧ v = .empty) ∨ (∃ g, outs = [g] ∧ Stands v g) ∨ (2 ≤ outs.length ∧ ∃ vs, v = .list vs ∧ List.Forall₂ Stands vs outs))) := by
  refine ⟨fun e => by subst e; rfl, fun e => ?_⟩
  have e1 : goResult (outs, err) = convertOuts outs := by
    match err, e with
    | none, _ => rfl
    | some false, _ => rfl
    | some true, e => exact absurd rfl e
  rw [e1]
  have all : ∀ (outs : List (GV F C)) (us : List GT), List.Forall₂ Exchange outs us → (∀ n, GT.struct n ∉ us) →
      ∃ vs, convertEach outs = .ok vs ∧ List.Forall₂ Stands vs outs := by
    intro outs us h
    induction h with
    | nil => intro _; exact ⟨[], rfl, .nil⟩
    | @cons g t gs ts hg _ ih =>
      intro hs
      obtain ⟨v, h1, h2⟩ := convertGo_data hg (fun n hn => hs n (by rw [hn]; exact List.mem_cons_self ..))
      obtain ⟨vs, h3, h4⟩ := ih (fun n hn => hs n (List.mem_cons_of_mem _ hn))
      exact ⟨v :: vs, by simp only [convertEach, h1, h3]; rfl, .cons h2 h4⟩
  match outs, h with
  | [], _ => exact ⟨.empty, rfl, .inl ⟨rfl, rfl⟩⟩
  | [g], .cons hg .nil =>
    obtain ⟨v, h1, h2⟩ := convertGo_data hg (fun n hn => hs n (by rw [hn]; exact List.mem_cons_self ..))
    exact ⟨v, h1, .inr (.inl ⟨g, rfl, h2⟩)⟩
  | g :: g' :: gs, h =>
    obtain ⟨vs, h1, h2⟩ := all _ _ h hs
    exact ⟨.list vs, by simp only [convertOuts, h1]; rfl, .inr (.inr ⟨by simp, vs, rfl, h2⟩)⟩

/-- Exception: a struct that is returned by value crashes the call. -/
theorem C79_struct_result (n : String) (loc : Nat) : goResult ([.struct n loc], none) = (.error .panic : Res (XV F C)) := rfl

/-- Exception: a left argument for a function with three or more parameters crashes the call. -/
theorem C79_left_crashes (ts : List GT) (h : 3 ≤ ts.length) (l r : XV F C) : exportArgs ts (some l) r = .error .panic := by
  match ts, h with
  | _ :: _ :: _ :: _, _ => rfl

/-- Exception: an argument of another type, for example an integer for a float, crashes the call. -/
theorem C79_mismatch_crashes (i : Int) : exportArgs [GT.float] none (.int i : XV F C) = .error .panic := rfl

/-! ### Structs -/

/-- Setting a field of a struct to a value it can hold, and reading it gives the value; all other fields of all structs remain.  The name of the field
is upper case, and there is no method of this name. -/
theorem C79_set (up : String → String) (method : String → Bool) (h : GoHeap F C) (loc : Nat) (s : String) (g old : GV F C) (v : XV F C)
    (hf : h.field loc s = some old) (hv : Stands v g) (ht : Exchange g old.type) :
    ∃ h', xgoSet h loc (.str s) v = .ok h' ∧ h'.field loc s = some g ∧
      (∀ loc' s', (loc' ≠ loc ∨ s' ≠ s) → h'.field loc' s' = h.field loc' s') ∧
      (up s = s → method s = false → ∃ v', xgoAt up method h' loc (.str s) = some v' ∧ Stands v' g) := by
  have e : xgoSet h loc (.str s) v = .ok (h.modify loc (fun fs => mapSet fs s g)) := by
    simp only [xgoSet, hf, C79_to_go ht hv]
  have hnew : ∀ s', GoHeap.field (h.modify loc (fun fs => mapSet fs s g)) loc s' = if s = s' then some g else h.field loc s' := by
    intro s'
    unfold GoHeap.field at hf ⊢
    rw [List.getElem?_modify]
    cases hl : h[loc]? with
    | none => rw [hl] at hf; cases hf
    | some fs => simp only [Option.map_eq_map, Option.map_some, Option.bind_some, if_true]; exact mapGet_set fs s s' g
  have h1 : GoHeap.field (h.modify loc (fun fs => mapSet fs s g)) loc s = some g := by rw [hnew, if_pos rfl]
  refine ⟨_, e, h1, ?_, ?_⟩
  · intro loc' s' hne
    by_cases hl : loc' = loc
    · subst hl
      rw [hnew, if_neg (fun e => by rcases hne with h | h; exacts [h rfl, h e.symm])]
    · unfold GoHeap.field
      rw [List.getElem?_modify]
      simp only [Ne.symm hl, if_false]
      cases h[loc']? <;> rfl
  · intro hup hm
    obtain ⟨v', h3, h4⟩ := C79_to_apl ht
    refine ⟨v', ?_, h4⟩
    simp only [xgoAt, hup, hm, Bool.false_eq_true, if_false, h1, h3]

/-- Exception: a key that begins with a lower case letter can be read, but it cannot be set. -/
theorem C79_lower_key (up : String → String) (method : String → Bool) (h : GoHeap F C) (loc : Nat) (s : String) (g : GV F C) (v : XV F C) (t : GT)
    (hg : Exchange g t) (hm : method (up s) = false) (hu : h.field loc (up s) = some g) (hl : h.field loc s = none) :
    (∃ v', xgoAt up method h loc (.str s) = some v' ∧ Stands v' g) ∧ xgoSet h loc (.str s) v = .error .err := by
  obtain ⟨v', h3, h4⟩ := C79_to_apl hg
  refine ⟨⟨v', ?_, h4⟩, ?_⟩
  · simp only [xgoAt, hm, Bool.false_eq_true, if_false, hu, h3]
  · simp only [xgoSet, hl]

/-! ### Examples -/
namespace XgoDemo

/-- a struct with two fields -/
def heap : GoHeap Nat Nat := [[("A", .int 3), ("B", .slice .str [.str "x"])]]

def capital (s : String) : String := if s = "b" then "B" else s

example : Passed [GT.int, .slice .int] (some (.arr [2] [.int 4, .int 5] : XV Nat Nat)) (.int 3) [.int 3, .slice .int [.int 4, .int 5]] :=
  .both (.int 3) (.int 3) (.arr (.cons (.int 4) (.cons (.int 5) .nil))) (.slice (by
    intro v hv
    rcases List.mem_cons.1 hv with rfl | hv
    · exact .int 4
    · rw [List.mem_singleton] at hv; subst hv; exact .int 5))

example : ¬ ∃ gs, Passed [GT.int, .str] none (.arr [1] [.int 4] : XV Nat Nat) gs := by
  rintro ⟨gs, h⟩
  have h := (C79_arguments _ _ _ _).2 h
  simp [exportArgs, XV.array] at h

example : heap.field 0 "B" = some (.slice .str [.str "x"]) := by rfl

example : (xgoSet heap 0 (.str "B") (.arr [2] [.str "y", .str "z"])).toOption = some [[("A", .int 3), ("B", .slice .str [.str "y", .str "z"])]] := by
  rfl

example : heap.field 0 (capital "b") = some (.slice .str [.str "x"]) ∧ heap.field 0 "b" = none := by constructor <;> rfl

end XgoDemo
end Iv

import Verif.Props.EvalOrder
/-
A small concrete interpreter, and programs that meet the hypotheses of the theorems about evaluation (C43, C44, C45, C46, C53).
-/
namespace Iv.Demo
open Iv

/-- subtraction, negation -/
def minus : Handler Int Unit where
  «to» l r := match l, r with
    | none, .data _ => some (l, r)
    | some (.data _), .data _ => some (l, r)
    | _, _ => none
  call l r := match l, r with
    | none, .data x => .ret (.ok (.data (-x)))
    | some (.data y), .data x => .ret (.ok (.data (y - x)))
    | _, _ => .ret (.error .err)
  select _ _ := .ret (.error .err)

/-- a later registration for functions as right argument: prints and returns 7 -/
def minusFn : Handler Int Unit where
  «to» l r := match l, r with
    | none, .fn _ => some (l, r)
    | _, _ => none
  call _ r := .print r (.ret (.ok (.data 7)))
  select _ _ := .ret (.error .err)

/-- a system with numbers only -/
def sys : Sys Int Unit where
  letter := Char.isAlpha
  number := Char.isDigit
  upper := Char.isUpper
  toBool d := if d = 0 then some false else if d = 1 then some true else none
  isScalar _ := true
  ofInt := id
  empty := -99
  strand _ := .ret (.error .err)
  list _ := .ret (.error .err)
  spec _ := .ret (.error .err)
  copy v := .ret (.ok v)
  prims := registry [("-", minus), ("-", minusFn)]
  ops _ := []
  native _ _ _ := .ret (.error .err)
  pkgVar _ := none
  setPP _ := none
  setIdx _ _ _ _ := .ret (.error .err)
  elems _ := .ret (.error .err)

abbrev S := St Int Unit
abbrev E := Expr Int

def lit (n : Int) : E := .lit n
def var (n : String) : E := .var n
def set (n : String) (e : E) : E := .app (.der "←" (some (.var n)) none) none e false
def modify (n : String) (f : Func Int) (e : E) : E := .app (.der "←" (some (.fn f)) none) (some (.var n)) e false
def sub (a b : E) : E := .app (.prim "-") (some a) b false
def neg (a : E) : E := .app (.prim "-") none a false
def call (f : Func Int) (e : E) : E := .app f none e false

/-- a state with X=5 -/
def s0 : S := ⟨[⟨none, [("X", some (.data 5))]⟩], 0, 1, 0, [], ()⟩

theorem s0_wf : WF s0 := by
  refine ⟨by simp [s0], ?_⟩
  intro i en p hi hp
  cases i with
  | zero => simp only [s0, List.getElem?_cons_zero, Option.some.injEq] at hi; rw [← hi] at hp; simp at hp
  | succ i => simp [s0] at hi

/-! C46: `X-X←3` is 0 with the assignment first; `(X←3)-X` evaluated in a state with X=5 is ¯2. -/

example : Evals sys (.eval (sub (var "X") (set "X" (lit 3)))) s0 (.ok (.data 0)) { s0 with envs := [⟨none, [("X", some (.data 3))]⟩] } :=
  ⟨9, rfl⟩

example : Evals sys (.eval (sub (set "X" (lit 3)) (var "X"))) s0 (.ok (.data (-2))) { s0 with envs := [⟨none, [("X", some (.data 3))]⟩] } :=
  ⟨9, rfl⟩

/-- by the theorem: the right argument is evaluated first -/
example : Evals sys (.eval (sub (var "X") (set "X" (lit 3)))) s0 (.ok (.data 0)) { s0 with envs := [⟨none, [("X", some (.data 3))]⟩] } :=
  (C46_dyadic_order sys (.prim "-") (var "X") (set "X" (lit 3)) rfl s0 _ _).mpr
    (.inr ⟨.data 3, _, ⟨9, rfl⟩, .inr ⟨.data 3, _, ⟨9, rfl⟩, ⟨9, rfl⟩⟩⟩)

example : Evals sys (.eval (neg (var "X"))) s0 (.ok (.data (-5))) s0 :=
  (C46_monadic_order sys (.prim "-") (var "X") s0 _ _).mpr (.inr ⟨.data 5, _, ⟨9, rfl⟩, ⟨9, rfl⟩⟩)

/-! C43, C44: a lambda with a local variable, one that hides a global one, and one that changes a global one. -/

/-- `{Y←⍵-1⋄X←Y⋄X-Y-X}` -/
def locals : Func Int := .lam (some [.mk none (some (set "Y" (sub (var "⍵") (lit 1)))), .mk none (some (set "X" (var "Y"))),
  .mk none (some (sub (var "X") (sub (var "Y") (var "X"))))])

/-- `{X-←⍵⋄X}` -/
def global : Func Int := .lam (some [.mk none (some (modify "X" (.prim "-") (var "⍵"))), .mk none (some (var "X"))])

/-- the call leaves the variables of the caller as they are: Y is not visible, X is 5 -/
example : ∃ s', Evals sys (.call locals none (.data 9)) s0 (.ok (.data 8)) s' ∧ s'.cur = 0 ∧
    s'.envs[0]? = some ⟨none, [("X", some (.data 5))]⟩ ∧ lookupEnv sys s' "Y" = (none, none) :=
  by refine ⟨_, ⟨15, rfl⟩, rfl, rfl, rfl⟩

example : ∃ s', Evals sys (.call locals none (.data 9)) s0 (.ok (.data 8)) s' ∧
    (∀ n e, Resolves s'.envs n s'.cur e ↔ Resolves s0.envs n s0.cur e) :=
  have h : Evals sys (.call locals none (.data 9)) s0 (.ok (.data 8)) _ := ⟨15, rfl⟩
  ⟨_, h, fun n e => C43_lambda_scope sys _ none (.data 9) s0 _ _ h s0_wf n e⟩

/-- the modified assignment changes the variable of the caller -/
example : ∃ s', Evals sys (.call global none (.data 2)) s0 (.ok (.data 3)) s' ∧
    s'.envs[0]? = some ⟨none, [("X", some (.data 3))]⟩ := ⟨_, ⟨15, rfl⟩, rfl⟩

/-- also after a failure the environment is the one of the caller: `{Y←⍵⋄Z-Y}` -/
example : ∃ s', Evals sys (.call (.lam (some [.mk none (some (set "Y" (var "⍵"))), .mk none (some (sub (var "Z") (var "Y")))])) none
    (.data 2)) s0 (.error .err) s' ∧ s'.cur = 0 :=
  have h : Evals sys (.call (.lam (some [.mk none (some (set "Y" (var "⍵"))), .mk none (some (sub (var "Z") (var "Y")))])) none
    (.data 2)) s0 (.error .err) _ := ⟨15, rfl⟩
  ⟨_, h, (C43_restored sys _ s0 _ _ h).1⟩

example : Resolves s0.envs "X" s0.cur 0 := .here 0 ⟨_, rfl, rfl⟩
example : Ordinary "X" := ⟨by decide, by decide, by decide, by decide⟩
example : isVarname sys "X" = some false ∧ isVarname sys "x" = some true ∧ isVarname sys "⍺" = some false ∧
    isVarname sys "⎕IO" = some false ∧ isVarname sys "1x" = none := by decide

/-- C44_assign: `X←3` -/
example : ∃ s', Evals sys (.eval (set "X" (lit 3))) s0 (.ok (.data 3)) s' ∧ slot s'.envs 0 "X" = some (some (.data 3)) := by
  obtain ⟨s', h1, _, _, h4⟩ := C44_assign sys "X" (.var "X") (lit 3) (.inl rfl) ⟨by decide, by decide, by decide, by decide⟩
    (by decide) false (by simp) s0 s0 s0 (.data 3) (.data 3) ⟨3, rfl⟩ s0_wf ⟨1, rfl⟩ rfl
  exact ⟨s', h1, by rw [h4]; rfl⟩

/-- C44_modified: `X-←3` -/
example : ∃ s', Evals sys (.eval (modify "X" (.prim "-") (lit 3))) s0 (.ok (.data 3)) s' ∧
    slot s'.envs 0 "X" = some (some (.data 2)) := by
  obtain ⟨s', h1, _, _, h4⟩ := C44_modified sys "X" (.prim "-") (lit 3) ⟨by decide, by decide, by decide, by decide⟩
    (by decide) false (by simp) s0 s0 s0 s0 s0_wf (.data 3) (.data 5) (.data 2) (.data 2) 0 ⟨3, rfl⟩
    (.here 0 ⟨_, rfl, rfl⟩) rfl ⟨3, rfl⟩ ⟨1, rfl⟩ rfl
  exact ⟨s', h1, by rw [h4]; rfl⟩

/-- the default left argument: `{⍺←1⋄⍺-⍵}` -/
def dflt : Func Int := .lam (some [.mk none (some (set "⍺" (lit 1))), .mk none (some (sub (var "⍺") (var "⍵")))])
example : ∃ s', Evals sys (.call dflt none (.data 4)) s0 (.ok (.data (-3))) s' := ⟨_, 15, rfl⟩
example : ∃ s', Evals sys (.call dflt (some (.data 9)) (.data 4)) s0 (.ok (.data 5)) s' := ⟨_, 15, rfl⟩

/-! C45: `{Y←⍵-1⋄Y:3⋄⍵-1:4⋄⍵}` of 2, 1, and 4. -/

def guards : List (Guard Int) := [.mk none (some (set "Y" (sub (var "⍵") (lit 1)))), .mk (some (var "Y")) (some (lit 3)),
  .mk (some (sub (var "⍵") (lit 1))) (some (lit 4)), .mk none (some (var "⍵"))]

example : ∃ s', Evals sys (.call (.lam (some guards)) none (.data 2)) s0 (.ok (.data 3)) s' := ⟨_, 15, rfl⟩
example : ∃ s', Evals sys (.call (.lam (some guards)) none (.data 1)) s0 (.ok (.data 1)) s' := ⟨_, 15, rfl⟩
example : ∃ s', Evals sys (.call (.lam (some guards)) none (.data 4)) s0 (.error .err) s' := ⟨_, 15, rfl⟩

/-- by the theorem: the guard behind the assignment is the first true one -/
example : ∃ s', Returns sys guards none (.data 2) s0 (.ok (.data 3)) s' :=
  ⟨_, C45_first_true sys [.mk none (some (set "Y" (sub (var "⍵") (lit 1))))] _ (var "Y") (lit 3) none (.data 2) s0 _ _ _ _ (.data 1)
    (.ok (.data 3)) rfl rfl
    (.assign _ _ _ _ (.data 1) _ _ _ rfl ⟨15, rfl⟩ (.nil _ _)) ⟨15, rfl⟩ rfl ⟨15, rfl⟩⟩

/-- by the theorem: a false condition is passed, the last expression is the result -/
example : ∃ s', Returns sys [.mk (some (var "⍵")) (some (lit 3)), .mk none (some (lit 8))] none (.data 0) s0 (.ok (.data 8)) s' :=
  ⟨_, C45_last sys [.mk (some (var "⍵")) (some (lit 3))] (lit 8) none (.data 0) s0 _ _ _ (.ok (.data 8)) rfl rfl
    (.condFalse _ _ _ _ _ (.data 0) _ _ _ (by intro e h; cases h; rfl) ⟨15, rfl⟩ rfl (.nil _ _)) ⟨15, rfl⟩⟩

/-- unreachable code: `{1⋄2}` -/
example : ∃ s', Returns sys [.mk none (some (lit 1)), .mk none (some (lit 2))] none (.data 0) s0 (.error .err) s' :=
  ⟨_, C45_unreachable_code sys [] _ (lit 1) none (.data 0) s0 _ _ rfl (by simp) (.nil _ _)⟩

/-- a loop with a tail call: `{⍵:7⋄1-⍵∇0}`: the recursion ends with the guard -/
def loop : List (Guard Int) := [.mk (some (var "⍵")) (some (lit 7)), .mk none (some (.app .self none (sub (lit 1) (var "⍵")) false))]
example : ∃ s', Evals sys (.call (.lam (some loop)) none (.data 0)) s0 (.ok (.data 7)) s' := ⟨_, 25, rfl⟩

/-! C53: the later handler is asked first; the earlier one gets what it does not accept. -/

example : Evals sys (.call (.prim "-") none (.fn .self)) s0 (.ok (.data 7)) { s0 with out := [.fn .self] } :=
  (C53_latest_handler sys [("-", minus)] [] "-" minusFn rfl none none (.fn .self) (.fn .self) (by simp) rfl s0 _ _).mpr ⟨1, rfl⟩

example : Evals sys (.call (.prim "-") none (.data 2)) s0 (.ok (.data (-2))) s0 :=
  (C53_latest_handler sys [] [("-", minusFn)] "-" minus rfl none none (.data 2) (.data 2)
    (by intro g hg; simp only [List.mem_singleton, Prod.mk.injEq, true_and] at hg; subst hg; rfl) rfl s0 _ _).mpr ⟨1, rfl⟩

example : Evals sys (.call (.prim "-") (some (.fn .self)) (.data 2)) s0 (.error .err) s0 :=
  (C53_no_handler sys [("-", minus), ("-", minusFn)] "-" rfl _ _
    (by intro g hg
        simp only [List.mem_cons, List.not_mem_nil, or_false, Prod.mk.injEq, true_and] at hg
        rcases hg with h | h <;> subst h <;> rfl) s0 _ _).mpr ⟨rfl, rfl⟩

end Iv.Demo

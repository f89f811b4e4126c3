import Verif.Model.IvCmd
import Verif.Props.Cmd
/-
C105: the stream processor iv and its test runner
-/
namespace Iv
variable {D H : Type}

theorem ivEval_ok (w : World D H) (n : Nat) (l : List Char) (i k : Machine D H) :
    ivEval w n l i = some (.ok, k) ↔ parsePanics w l = false ∧ evalLine w n l i = some (.ok (), k) := by
  unfold ivEval
  cases hp : parsePanics w l with
  | true => simp
  | false =>
    simp only [Bool.false_eq_true, if_false, true_and]
    cases he : evalLine w n l i with
    | none => simp
    | some x =>
      obtain ⟨r, j⟩ := x
      cases r <;> simp

theorem ivEval_failed (w : World D H) (n : Nat) (l : List Char) (i k : Machine D H) :
    ivEval w n l i = some (.failed, k) ↔ parsePanics w l = false ∧ ∃ e, evalLine w n l i = some (.error e, k) := by
  unfold ivEval
  cases hp : parsePanics w l with
  | true => simp
  | false =>
    simp only [Bool.false_eq_true, if_false, true_and]
    cases he : evalLine w n l i with
    | none => simp
    | some x =>
      obtain ⟨r, j⟩ := x
      cases r <;> simp

theorem ivEval_crash (w : World D H) (n : Nat) (l : List Char) (i k : Machine D H) :
    ivEval w n l i = some (.crash, k) ↔ parsePanics w l = true ∧ k = i := by
  unfold ivEval
  cases hp : parsePanics w l with
  | true => simp [eq_comm]
  | false =>
    simp only [Bool.false_eq_true, if_false]
    cases he : evalLine w n l i with
    | none => simp
    | some x =>
      obtain ⟨r, j⟩ := x
      cases r <;> simp

/-- C105.  `iv` succeeds with a program exactly if a session of the interpreter (C101) of two lines, the definition of `r` and `s` and the program,
has no message; the output and all other effects (they are in the machine) are those of that session. -/
theorem C105_success (w : World D H) (n : Nat) (p : List Char) (i k : Machine D H) :
    ivRun w n p i = some (.ok, k) ↔ ReplRun w n i [ivPrelude, p] k [[], []] := by
  unfold ivRun
  constructor
  · intro h
    cases he : ivEval w n ivPrelude i with
    | none => rw [he] at h; cases h
    | some x =>
      obtain ⟨c, j⟩ := x
      rw [he] at h
      cases c with
      | failed => cases h
      | crash => cases h
      | ok =>
        obtain ⟨h1, h2⟩ := (ivEval_ok w n _ i j).1 he
        obtain ⟨h3, h4⟩ := (ivEval_ok w n _ j k).1 h
        exact .good _ _ _ _ _ _ h1 h2 (.good _ _ _ _ _ _ h3 h4 (.nil _))
  · intro h
    cases h with
    | good _ _ j _ _ _ h1 h2 h =>
      cases h with
      | good _ _ j' _ _ _ h3 h4 h =>
        cases h
        rw [(ivEval_ok w n _ i j).2 ⟨h1, h2⟩]
        exact (ivEval_ok w n _ j k).2 ⟨h3, h4⟩

/-- C105.  `iv` ends with an error exactly if one of the two lines has one; if it is the first line, the program is not run at all. -/
theorem C105_failure (w : World D H) (n : Nat) (p : List Char) (i k : Machine D H) :
    ivRun w n p i = some (.failed, k) ↔
      (parsePanics w ivPrelude = false ∧ ∃ e, evalLine w n ivPrelude i = some (.error e, k)) ∨
      ∃ j e, ReplRun w n i [ivPrelude, p] k [[], [.err e]] ∧ evalLine w n ivPrelude i = some (.ok (), j) := by
  unfold ivRun
  constructor
  · intro h
    cases he : ivEval w n ivPrelude i with
    | none => rw [he] at h; cases h
    | some x =>
      obtain ⟨c, j⟩ := x
      rw [he] at h
      cases c with
      | crash => cases h
      | failed =>
        cases h
        exact Or.inl ((ivEval_failed w n _ i _).1 he)
      | ok =>
        obtain ⟨h1, h2⟩ := (ivEval_ok w n _ i j).1 he
        obtain ⟨h3, e, h4⟩ := (ivEval_failed w n _ j k).1 h
        exact Or.inr ⟨j, e, .good _ _ _ _ _ _ h1 h2 (.bad _ _ _ _ _ _ _ h3 h4 (.nil _)), h2⟩
  · rintro (h | ⟨j, e, h, _⟩)
    · rw [(ivEval_failed w n _ i k).2 h]
    · cases h with
      | good _ _ j' _ _ _ h1 h2 h =>
        cases h with
        | bad _ _ e' j'' _ _ _ h3 h4 h =>
          cases h
          rw [(ivEval_ok w n _ i _).2 ⟨h1, h2⟩]
          exact (ivEval_failed w n _ _ k).2 ⟨h3, _, h4⟩

/-- C105.  Arguments of the command line are one program with blanks between them: two neighbouring arguments may as well be one. -/
theorem C105_arguments (w : World D H) (n : Nat) (pre post : List (List Char)) (x y : List Char) (i : Machine D H) :
    ivMain w n (pre ++ x :: y :: post) i = ivMain w n (pre ++ (x ++ ' ' :: y) :: post) i ∧
    ivMain w n [x] i = ivRun w n x i ∧ ivMain w n [] i = some (.failed, i) := by
  have h0 : ∀ post, joinArgs (x :: y :: post) = joinArgs ((x ++ ' ' :: y) :: post) := by
    intro post
    cases post with
    | nil => rfl
    | cons a as => simp [joinArgs]
  have h1 : ∀ pre, joinArgs (pre ++ x :: y :: post) = joinArgs (pre ++ (x ++ ' ' :: y) :: post) := by
    intro pre
    induction pre with
    | nil => exact h0 post
    | cons a as ih =>
      have e : ∀ l : List (List Char), l ≠ [] → joinArgs (a :: l) = a ++ ' ' :: joinArgs l := by
        intro l hl
        cases l with
        | nil => exact absurd rfl hl
        | cons b bs => rfl
      rw [List.cons_append, List.cons_append, e _ (by simp), e _ (by simp), ih]
  refine ⟨?_, rfl, rfl⟩
  have h2 : ∀ l : List (List Char), l ≠ [] → ivMain w n l i = ivRun w n (joinArgs l) i := by
    intro l hl
    cases l with
    | nil => exact absurd rfl hl
    | cons b bs => rfl
  rw [h2 _ (by simp), h2 _ (by simp), h1]

theorem readFirstLine_some (text l r : List Char) : readFirstLine text = some (l, r) ↔ text = l ++ '\n' :: r ∧ '\n' ∉ l := by
  induction text generalizing l with
  | nil => simp [readFirstLine]
  | cons c cs ih =>
    rw [readFirstLine]
    by_cases hc : c = '\n'
    · subst hc
      rw [if_pos rfl]
      constructor
      · intro h; cases h; simp
      · rintro ⟨h, hn⟩
        cases l with
        | nil => simp at h; simp [h]
        | cons a as => simp at h hn; exact absurd h.1 hn.1
    · rw [if_neg hc]
      constructor
      · intro h
        cases hr : readFirstLine cs with
        | none => rw [hr] at h; cases h
        | some x =>
          obtain ⟨l', r'⟩ := x
          rw [hr] at h
          cases h
          obtain ⟨h1, h2⟩ := (ih l').1 hr
          exact ⟨by rw [h1]; rfl, by simp [h2, Ne.symm hc]⟩
      · rintro ⟨h, hn⟩
        cases l with
        | nil => simp at h; exact absurd h.1 hc
        | cons a as =>
          simp at h hn
          rw [(ih as).2 ⟨h.2, hn.2⟩, h.1]

/-- C105.  A test file passes exactly if its first line is a comment character and a program, `iv` succeeds with this program and with
everything behind the first newline, unchanged, as its input, and the output is the content of the file with the expected output. -/
theorem C105_test_file (run : List Char → List Char → List Nat × Bool) (text : List Char) (out : Option (List Nat)) :
    testIvFile run text out = true ↔
      ∃ c p rest o, text = c :: p ++ '\n' :: rest ∧ '\n' ∉ c :: p ∧ run p rest = (o, true) ∧ out = some o := by
  unfold testIvFile
  constructor
  · intro h
    cases hr : readFirstLine text with
    | none => rw [hr] at h; cases h
    | some x =>
      obtain ⟨l, rest⟩ := x
      rw [hr] at h
      obtain ⟨h1, h2⟩ := (readFirstLine_some text l rest).1 hr
      cases l with
      | nil => cases h
      | cons c p =>
        simp only at h
        cases hx : run p rest with
        | mk o b =>
          rw [hx] at h
          cases b with
          | false => cases h
          | true => exact ⟨c, p, rest, o, h1, h2, hx, (C102_accepts o out).1 (by simpa using h)⟩
  · rintro ⟨c, p, rest, o, h1, h2, h3, rfl⟩
    rw [(readFirstLine_some text (c :: p) rest).2 ⟨h1, h2⟩]
    simp only [h3]
    rw [(C102_accepts o (some o)).2 rfl]
    rfl

/-- Known deviation: a test file without a newline fails, even if it is a program that needs no input. -/
theorem C105_no_newline (run : List Char → List Char → List Nat × Bool) (text : List Char) (out : Option (List Nat)) (h : '\n' ∉ text) :
    testIvFile run text out = false := by
  cases ht : testIvFile run text out with
  | false => rfl
  | true =>
    obtain ⟨c, p, rest, o, h1, _⟩ := (C105_test_file run text out).1 ht
    rw [h1] at h
    simp at h

example : testIvFile (fun p input => ((p ++ input).map Char.toNat, true)) "#p\n12".toList (some [112, 49, 50]) = true := by decide +kernel
example : joinArgs ["1".toList, "+2".toList] = "1 +2".toList := by decide +kernel

namespace IvDemo
open PkgDemo

/-- the world of the other demos with the symbols of the first line -/
def ivWorld : World Int Unit :=
  { world with
    ctx := { world.ctx with symbol := fun c => if "←-<⍤⍴".toList.contains c then some (String.singleton c) else none }
    pctx := { world.pctx with
      prim := fun s => ["-", "<", "⍴"].contains s
      op := fun s => if s = "←" then some false else if s = "⍤" then some true else none
      varname := fun s => if s = "⍵" then some false else world.pctx.varname s } }

def ended (x : Option (CmdEnd × Machine Int Unit)) : Option (CmdEnd × List Int) :=
  x.map (fun x => (x.1, x.2.st.out.map (fun v => match v with | .data d => d | _ => 77)))

-- `iv -2` prints -2, `iv €` fails, `iv -A[1][2]` crashes
example : ended (ivMain ivWorld 30 ["X←2⋄".toList, "-X".toList] start) = some (.ok, [-2]) := by decide +kernel
example : ended (ivMain ivWorld 30 ["€".toList] start) = some (.failed, []) := by decide +kernel
example : ended (ivMain ivWorld 30 ["-A[1][2]".toList] start) = some (.crash, []) := by decide +kernel

end IvDemo

end Iv

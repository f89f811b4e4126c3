import Verif.Lemmas.ParseLoop
import Verif.Props.Program
/-
C46: the scope of functions in a statement, from its tokens.
-/
namespace Iv
variable {D : Type}

/-- A statement is parsed to the expression that its words mean: each function has everything to its right as right argument, and the
operand on its left as left argument; functions without arguments are trains.  `Statement` (Verif/SpecParse.lean) relates the tokens
of a statement to its value; parentheses, brackets and braces may be nested to any depth. -/
theorem C46_long_right_scope (ctx : PCtx D) (n : Nat) (ts : List Token) (i : Item D) (h : Statement ctx n ts i) :
    parseStatement ctx ts = .ok (some i) := (Statement.good n).parse ts i h

/-- the value of a statement is unique -/
theorem C46_unique (ctx : PCtx D) (n m : Nat) (ts : List Token) (i j : Item D) (h : Statement ctx n ts i) (h' : Statement ctx m ts j) :
    i = j := by
  have h1 := (Statement.good n).parse ts i h
  have h2 := (Statement.good m).parse ts j h'
  rw [h1] at h2
  simpa using h2

/-- A statement with a value: functions and operands in turn, without operators: `ws` are the operands and functions from left to right,
`ts` their tokens. -/
theorem C46_words (ctx : PCtx D) (n : Nat) (ps : List (List Token × Item D)) (e : Expr D)
    (hp : ∀ p ∈ ps, Piece ctx (Statement ctx n) p.1 p.2 ∧ (p.2.cls = .noun ∨ p.2.cls = .verb)) (ha : Adjacent ctx ps)
    (hs : scope (ps.map (fun p => ⟨p.2.e, p.2.cls == .verb, []⟩)) = some e) :
    parseStatement ctx (ps.map Prod.fst).flatten = .ok (some ⟨e, .noun⟩) := by
  have hw : ps.map Prod.snd = wordsItems (ps.map (fun p => (⟨p.2.e, p.2.cls == .verb, []⟩ : Word D))) := by
    clear ha hs
    induction ps with
    | nil => rfl
    | cons p ps ih =>
      rw [List.map_cons, List.map_cons, wordsItems, ← ih (fun q hq => hp q (by simp [hq]))]
      rcases (hp p (by simp)).2 with h | h
      · rcases hpp : p.2 with ⟨e, c⟩
        rw [hpp] at h; simp at h; subst h; rfl
      · rcases hpp : p.2 with ⟨e, c⟩
        rw [hpp] at h; simp at h; subst h; rfl
  have hc : ∀ l : List (List Token × Item D), Chained (l.map (fun p => (⟨p.2.e, p.2.cls == .verb, []⟩ : Word D))) := by
    intro l
    induction l with
    | nil => trivial
    | cons p l ih => exact ⟨rfl, fun h => by simp [endsMop] at h, ih⟩
  refine C46_long_right_scope ctx (n + 1) _ _ (.value ps _ e (.all (fun p h => (hp p h).1)) ha hw ?_ hs)
  cases ps with
  | nil => trivial
  | cons p ps => exact hc ps

/-- The axis of an operator: `f op[a] x` applies the function `f op` along the axis `a` to everything on the right, `((f op)⍂a) x`. -/
theorem C46_operator_axis (ctx : PCtx D) (n : Nat) (f op : String) (bs rs : List Token) (a r : Item D) (hf : ctx.prim f = true)
    (ho : ctx.prim op = false) (hop : ctx.op op = some false) (ha : Statement ctx n bs a) (han : a.cls = .noun)
    (hr : Atom ctx (Statement ctx n) rs r) (hrn : r.cls = .noun) :
    parseStatement ctx (⟨.symbol, f⟩ :: ⟨.symbol, op⟩ :: tLB :: (bs ++ tRB :: rs)) =
      .ok (some ⟨.app (.der "⍂" (some (.fn (.der op (some (.fn (.prim f))) none))) (some a.e)) none r.e false, .noun⟩) := by
  have hg := Statement.good (ctx := ctx) n
  have h := C46_long_right_scope ctx (n + 1) _ _ (.value
    [([⟨.symbol, f⟩], ⟨.fn (.prim f), .verb⟩), ([⟨.symbol, op⟩], ⟨.fn (.der op none none), .adverb⟩),
      ([tLB], ⟨.fn (.der "⍂" none none), .conj⟩), (bs ++ [tRB], ⟨a.e, .noun⟩), (rs, r)]
    [⟨.fn (.prim f), true, [.mop op, .dop "⍂" a.e false]⟩, ⟨r.e, false, []⟩]
    (.app (.der "⍂" (some (.fn (.der op (some (.fn (.prim f))) none))) (some a.e)) none r.e false)
    (.cons _ _ (.atom _ _ (.prim _ hf)) (.opAxis [⟨.symbol, op⟩] op none none .adverb bs a.e _ (.mop _ ho hop) (hg.ne _ _ ha)
      (.one _ _ (.some _ _ ha)) (hg.noun _ _ ha han) (by simp) (.cons _ _ (.atom _ _ hr) .nil)))
    ?_ ?_ ?_ rfl)
  · simpa using h
  · refine ⟨?_, ?_, ?_, fun _ _ => by simp [isDot], ?_, ?_, ?_, ?_, fun _ _ => by simp [hrn]⟩
    all_goals first
      | (intro s t hs ht; simp at hs; subst hs; simp [strandTok])
      | (intro hp h; simp at h; subst h; rw [hp] at hf; cases hf)
      | (intro _ h; simp at h; done)
      | (intro _ h; have := congrArg List.getLast? h; simp at this)
  · rcases r with ⟨e, c⟩
    simp only at hrn
    subst hrn
    rfl
  · exact ⟨rfl, fun h => by simp [endsMop] at h, trivial⟩

/-! ### Examples -/

namespace ParseDemo

/-- a small interpreter: the primitives `+ - × ⌷`, the operators `/ ¨ ∘ .` and names -/
def ctx : PCtx Int where
  prim s := s ∈ ["+", "-", "×", "⌷"]
  op s := if s ∈ ["/", "¨", "←"] then some false else if s ∈ ["∘", "."] then some true else none
  varname s := match s.toList with
    | c :: _ => if c.isUpper then some false else some true
    | [] => none
  number s := if s = "1" then some 1 else if s = "2" then some 2 else none
  str s := s.length
  empty := -1

def num (s : String) : Token := ⟨.number, s⟩
def sym (s : String) : Token := ⟨.symbol, s⟩
def idn (s : String) : Token := ⟨.identifier, s⟩

def nl (n : Int) : Expr Int := .lit n
def mon (s : String) (r : Expr Int) : Expr Int := .app (.prim s) none r false
def dya (l : Expr Int) (s : String) (r : Expr Int) : Expr Int := .app (.prim s) (some l) r false

/-- the example of the theorem: `1 2-A×+B` is `1 2-(A×(+B))`, and it meets the hypotheses -/
example : parseStatement ctx [num "1", num "2", sym "-", idn "A", sym "×", sym "+", idn "B"] =
    .ok (some ⟨dya (.strand [nl 1, nl 2]) "-" (dya (.var "A") "×" (mon "+" (.var "B"))), .noun⟩) := by
  refine C46_words ctx 0
    [([num "1", num "2"], ⟨.strand [nl 1, nl 2], .noun⟩), ([sym "-"], ⟨.fn (.prim "-"), .verb⟩), ([idn "A"], ⟨.var "A", .noun⟩),
      ([sym "×"], ⟨.fn (.prim "×"), .verb⟩), ([sym "+"], ⟨.fn (.prim "+"), .verb⟩), ([idn "B"], ⟨.var "B", .noun⟩)] _ ?_ ?_ rfl
  · intro p hp
    simp only [List.mem_cons, List.not_mem_nil, or_false] at hp
    rcases hp with rfl | rfl | rfl | rfl | rfl | rfl
    · exact ⟨.atom _ _ (.strand _ _ (.many _ _ (by decide) (.cons _ _ _ _ (.number _ _ rfl) (.cons _ _ _ _ (.number _ _ rfl) .nil)))), .inl rfl⟩
    · exact ⟨.atom _ _ (.prim _ rfl), .inr rfl⟩
    · exact ⟨.atom _ _ (.strand _ _ (.one _ _ (.var _ rfl))), .inl rfl⟩
    · exact ⟨.atom _ _ (.prim _ rfl), .inr rfl⟩
    · exact ⟨.atom _ _ (.prim _ rfl), .inr rfl⟩
    · exact ⟨.atom _ _ (.strand _ _ (.one _ _ (.var _ rfl))), .inl rfl⟩
  · simp [Adjacent, jotOK, strandTok, num, sym, idn, tJot]

/-- nested: `{⍵}` is `{Z}` here; `(1+2)×{Z-1⋄}+/A[2;]` -/
def inner1 : List Token := [num "1", sym "+", num "2"]

theorem inner1_ok : Statement ctx 1 inner1 ⟨dya (nl 1) "+" (nl 2), .noun⟩ := by
  refine .value [([num "1"], ⟨nl 1, .noun⟩), ([sym "+"], ⟨.fn (.prim "+"), .verb⟩), ([num "2"], ⟨nl 2, .noun⟩)]
    [⟨nl 1, false, []⟩, ⟨.fn (.prim "+"), true, []⟩, ⟨nl 2, false, []⟩] _ ?_ ?_ rfl ?_ rfl
  · refine .all fun p hp => ?_
    simp only [List.mem_cons, List.not_mem_nil, or_false] at hp
    rcases hp with rfl | rfl | rfl
    · exact .atom _ _ (.strand _ _ (.one _ _ (.number _ _ rfl)))
    · exact .atom _ _ (.prim _ rfl)
    · exact .atom _ _ (.strand _ _ (.one _ _ (.number _ _ rfl)))
  · simp [Adjacent, jotOK, strandTok, num, sym, tJot]
  · simp [Parsable, Chained, noTriple, endsMop]

theorem inner2_ok : Statement ctx 1 [idn "Z", sym "-", num "1"] ⟨dya (.var "Z") "-" (nl 1), .noun⟩ := by
  refine .value [([idn "Z"], ⟨.var "Z", .noun⟩), ([sym "-"], ⟨.fn (.prim "-"), .verb⟩), ([num "1"], ⟨nl 1, .noun⟩)]
    [⟨.var "Z", false, []⟩, ⟨.fn (.prim "-"), true, []⟩, ⟨nl 1, false, []⟩] _ ?_ ?_ rfl ?_ rfl
  · refine .all fun p hp => ?_
    simp only [List.mem_cons, List.not_mem_nil, or_false] at hp
    rcases hp with rfl | rfl | rfl
    · exact .atom _ _ (.strand _ _ (.one _ _ (.var _ rfl)))
    · exact .atom _ _ (.prim _ rfl)
    · exact .atom _ _ (.strand _ _ (.one _ _ (.number _ _ rfl)))
  · simp [Adjacent, jotOK, strandTok, num, sym, idn, tJot]
  · simp [Parsable, Chained, noTriple, endsMop]

theorem two_ok : Statement ctx 1 [num "2"] ⟨nl 2, .noun⟩ := by
  refine .value [([num "2"], ⟨nl 2, .noun⟩)] [⟨nl 2, false, []⟩] _ ?_ ?_ rfl ?_ rfl
  · refine .all fun p hp => ?_
    simp only [List.mem_cons, List.not_mem_nil, or_false] at hp
    subst hp
    exact .atom _ _ (.strand _ _ (.one _ _ (.number _ _ rfl)))
  · simp [Adjacent, jotOK, num, tJot]
  · simp [Parsable, Chained]

/-- `(1+2)×{Z-1⋄}+/A[2;]`: parentheses, a lambda function, an operator and an index -/
example : parseStatement ctx
    ([tLP, num "1", sym "+", num "2", tRP, sym "×", tLC, idn "Z", sym "-", num "1", tDia, tRC, sym "+", sym "/", idn "A", tLB, num "2",
      tSemi, tRB]) =
    .ok (some ⟨dya (dya (nl 1) "+" (nl 2)) "×" (.app (.lam (some [.mk none (some (dya (.var "Z") "-" (nl 1)))])) none
      (.app (.der "/" (some (.fn (.prim "+"))) none) none
        (.app (.prim "⌷") (some (.spec [nl 2, .lit (-1)])) (.var "A") false) false) false), .noun⟩) := by
  refine C46_long_right_scope ctx 2 _ _ (.value
    [(tLP :: (inner1 ++ [tRP]), ⟨dya (nl 1) "+" (nl 2), .noun⟩), ([sym "×"], ⟨.fn (.prim "×"), .verb⟩),
      (tLC :: (([idn "Z", sym "-", num "1"] ++ [tDia]) ++ [tRC]), ⟨.fn (.lam (some [.mk none (some (dya (.var "Z") "-" (nl 1)))])), .verb⟩),
      ([sym "+"], ⟨.fn (.prim "+"), .verb⟩), ([sym "/"], ⟨.fn (.der "/" none none), .adverb⟩),
      ([idn "A"] ++ tLB :: (([num "2"] ++ tSemi :: []) ++ [tRB]), ⟨.app (.prim "⌷") (some (.spec [nl 2, .lit (-1)])) (.var "A") false, .noun⟩)]
    [⟨dya (nl 1) "+" (nl 2), false, []⟩, ⟨.fn (.prim "×"), true, []⟩,
      ⟨.fn (.lam (some [.mk none (some (dya (.var "Z") "-" (nl 1)))])), true, []⟩, ⟨.fn (.prim "+"), true, [.mop "/"]⟩,
      ⟨.app (.prim "⌷") (some (.spec [nl 2, .lit (-1)])) (.var "A") false, false, []⟩] _ ?_ ?_ rfl ?_ rfl)
  · refine .all fun p hp => ?_
    simp only [List.mem_cons, List.not_mem_nil, or_false] at hp
    rcases hp with rfl | rfl | rfl | rfl | rfl | rfl
    · exact .atom _ _ (.paren _ _ inner1_ok)
    · exact .atom _ _ (.prim _ rfl)
    · exact .atom _ _ (.lambda _ _ (.trail _ _ (.plain _ _ inner2_ok)))
    · exact .atom _ _ (.prim _ rfl)
    · exact .atom _ _ (.mop _ rfl rfl)
    · exact .index [idn "A"] (.var "A") ([num "2"] ++ tSemi :: []) _ (.strand _ _ (.one _ _ (.var _ rfl)))
        (.slots _ _ (by simp) (.cons _ _ _ _ (.some _ _ two_ok) (.one _ _ .none)))
  · simp [Adjacent, jotOK, strandTok, inner1, num, sym, idn, tJot]
  · simp [Parsable, Chained, noTriple, endsMop]

/-- `1-+/[2]A`: the axis of an operator is the right operand of `⍂`, `1-((+/)⍂2)A` -/
example : parseStatement ctx [num "1", sym "-", sym "+", sym "/", tLB, num "2", tRB, idn "A"] =
    .ok (some ⟨dya (nl 1) "-" (.app (.der "⍂" (some (.fn (.der "/" (some (.fn (.prim "+"))) none))) (some (nl 2))) none (.var "A") false), .noun⟩) := by
  refine C46_long_right_scope ctx 2 _ _ (.value
    [([num "1"], ⟨nl 1, .noun⟩), ([sym "-"], ⟨.fn (.prim "-"), .verb⟩), ([sym "+"], ⟨.fn (.prim "+"), .verb⟩),
      ([sym "/"], ⟨.fn (.der "/" none none), .adverb⟩), ([tLB], ⟨.fn (.der "⍂" none none), .conj⟩), ([num "2"] ++ [tRB], ⟨nl 2, .noun⟩),
      ([idn "A"], ⟨.var "A", .noun⟩)]
    [⟨nl 1, false, []⟩, ⟨.fn (.prim "-"), true, []⟩, ⟨.fn (.prim "+"), true, [.mop "/", .dop "⍂" (nl 2) false]⟩, ⟨.var "A", false, []⟩]
    _ ?_ ?_ rfl ?_ rfl)
  · refine .cons _ _ (.atom _ _ (.strand _ _ (.one _ _ (.number _ _ rfl)))) (.cons _ _ (.atom _ _ (.prim _ rfl)) (.cons _ _ (.atom _ _ (.prim _ rfl)) ?_))
    refine .opAxis [sym "/"] "/" none none .adverb [num "2"] (nl 2) _ (.mop _ rfl rfl) (by simp) (.one _ _ (.some _ _ two_ok)) rfl (by simp) ?_
    exact .cons _ _ (.atom _ _ (.strand _ _ (.one _ _ (.var _ rfl)))) .nil
  · simp [Adjacent, jotOK, strandTok, num, sym, idn, tJot]
  · simp [Parsable, Chained, noTriple, endsMop]

/-- `+/[2]A` meets the hypotheses of `C46_operator_axis` -/
example : parseStatement ctx [sym "+", sym "/", tLB, num "2", tRB, idn "A"] =
    .ok (some ⟨.app (.der "⍂" (some (.fn (.der "/" (some (.fn (.prim "+"))) none))) (some (nl 2))) none (.var "A") false, .noun⟩) :=
  C46_operator_axis ctx 1 "+" "/" [num "2"] [idn "A"] ⟨nl 2, .noun⟩ ⟨.var "A", .noun⟩ rfl rfl rfl two_ok rfl
    (.strand _ _ (.one _ _ (.var _ rfl))) rfl

/-! ### What is outside of the grammar: the conditions of `Parsable`, `ListElems` and `Piece` are needed -/

def der1 (op : String) (p : Expr Int) : Expr Int := .fn (.der op (some p) none)

/-- Three monadic operators in a row with an item on the left: `-+/¨/A` is read as `-(+/)((_¨)/)A`, with an operator that has no operand;
`+/¨/A` alone is parsed as `((+/)¨)/A`. -/
theorem C46_three_operators :
    parseStatement ctx [sym "-", sym "+", sym "/", sym "¨", sym "/", idn "A"] =
      .ok (some ⟨mon "-" (.app (.der "/" (some (.fn (.prim "+"))) none) none
        (.app (.der "/" (some (.fn (.der "¨" none none))) none) none (.var "A") false) false), .noun⟩) ∧
    parseStatement ctx [sym "+", sym "/", sym "¨", sym "/", idn "A"] =
      .ok (some ⟨.app (.der "/" (some (der1 "¨" (der1 "/" (.fn (.prim "+"))))) none) none (.var "A") false, .noun⟩) := ⟨rfl, rfl⟩

/-- In the middle of a statement, a monadic operator is followed by a word with a dyadic operator (the tokens `1 + + / - ∘ × A`): it is not parsed. -/
theorem C46_operator_then_operator :
    parseStatement ctx [num "1", sym "+", sym "+", sym "/", sym "-", sym "∘", sym "×", idn "A"] = .error .err := rfl

/-- The elements of a list are split at semicolons in brackets: `(A[1;2];2;)` is not parsed. -/
theorem C46_list_with_index :
    parseStatement ctx [tLP, idn "A", tLB, num "1", tSemi, num "2", tRB, tSemi, num "2", tSemi, tRP] = .error .err := rfl

/-- Empty elements of a list are empty arrays: `(1;;)` and `(;)`; without any semicolon `()` is an error. -/
theorem C46_empty_elements :
    parseStatement ctx [tLP, num "1", tSemi, tSemi, tRP] = .ok (some ⟨.list [nl 1, .lit ctx.empty], .noun⟩) ∧
    parseStatement ctx [tLP, tSemi, tRP] = .ok (some ⟨.list [.lit ctx.empty], .noun⟩) ∧
    parseStatement ctx [tLP, tRP] = .error .err := ⟨rfl, rfl, rfl⟩

/-- Indexing twice works for the leftmost word only: `A[1][2]` is parsed, `+A[1][2]` panics. -/
theorem C46_double_index :
    parseStatement ctx [idn "A", tLB, num "1", tRB, tLB, num "2", tRB] =
      .ok (some ⟨.app (.prim "⌷") (some (.spec [nl 2])) (.app (.prim "⌷") (some (.spec [nl 1])) (.var "A") false) false, .noun⟩) ∧
    parseStatement ctx [sym "+", idn "A", tLB, num "1", tRB, tLB, num "2", tRB] = .error .panic := ⟨rfl, rfl⟩

/-- Behind the axis of an operator there must not be another operator, if there is something on the left: `+/[1]×/A` is parsed as
`((+/)⍂1)(×/)A`, but `-+/[1]×/A` and `1++/[1]×/A` are errors. -/
theorem C46_axis_then_operator :
    parseStatement ctx [sym "+", sym "/", tLB, num "1", tRB, sym "×", sym "/", idn "A"] =
      .ok (some ⟨.app (.der "⍂" (some (der1 "/" (.fn (.prim "+")))) (some (nl 1))) none
        (.app (.der "/" (some (.fn (.prim "×"))) none) none (.var "A") false) false, .noun⟩) ∧
    parseStatement ctx [sym "-", sym "+", sym "/", tLB, num "1", tRB, sym "×", sym "/", idn "A"] = .error .err ∧
    parseStatement ctx [num "1", sym "+", sym "+", sym "/", tLB, num "1", tRB, sym "×", sym "/", idn "A"] = .error .err :=
  ⟨rfl, rfl, rfl⟩

/-- Brackets with nothing on their left: `[1]+2` is parsed as `2`. -/
theorem C46_leading_bracket : parseStatement ctx [tLB, num "1", tRB, sym "+", num "2"] = .ok (some ⟨nl 2, .noun⟩) := rfl

/-- A train in parentheses at the end of a train is flattened: `+(-×)` is the train `+-×`. -/
theorem C46_train_flattened : parseStatement ctx [sym "+", tLP, sym "-", sym "×", tRP] =
    .ok (some ⟨.fn (.train [.fn (.prim "+"), .fn (.prim "-"), .fn (.prim "×")]), .verb⟩) := rfl

/-- The assignment of a train is a train, it is not evaluated as an assignment: `f←-×`; the assignment `f←+/` is one. -/
theorem C46_assign_train :
    parseStatement ctx [idn "f", sym "←", sym "-", sym "×"] =
      .ok (some ⟨.fn (.train [der1 "←" (.fn (.fvar "f")), .fn (.prim "-"), .fn (.prim "×")]), .verb⟩) ∧
    parseStatement ctx [idn "f", sym "←", sym "+", sym "/"] =
      .ok (some ⟨.app (.der "←" (some (.fn (.fvar "f"))) none) none (der1 "/" (.fn (.prim "+"))) false, .verb⟩) := ⟨rfl, rfl⟩

/-! C47 -/

/-- `A←1⋄{Z⋄Z}A⋄`: two statements -/
example : Statements ([idn "A", sym "←", num "1"] ++ tDia :: ([tLC, idn "Z", tDia, idn "Z", tRC, idn "A"] ++ tDia :: []))
    [[idn "A", sym "←", num "1"], [tLC, idn "Z", tDia, idn "Z", tRC, idn "A"]] := by
  exact .cons _ _ _ _ (oneStatement_of rfl) rfl rfl (.cons _ _ _ _ (oneStatement_of rfl) rfl rfl .nil)

/-- Diamonds in parentheses separate: `(1⋄2)` is two statements, which do not parse. -/
theorem C47_diamond_in_parentheses : parseProgram ctx [tLP, num "1", tDia, num "2", tRP] = .error .err := rfl

end ParseDemo

end Iv

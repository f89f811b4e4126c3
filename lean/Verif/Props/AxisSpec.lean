import Verif.Model.AxisSpec
import Verif.Lemmas.Effect
import Verif.Props.Reverse
import Verif.Props.Rotate
import Verif.Props.Replicate
import Verif.Props.Reduce
import Verif.Props.Take
import Verif.Props.Catenate
namespace Iv
variable {m : Type → Type} [Monad m] {α V : Type}

/-! ## C104: axis specifications -/

/-- The number in the brackets is the number `o + d`: as a scalar, or as the only element of a vector, of any numeric type. -/
inductive AxisNumber (idx : V → Option Int) : AxisVal V → Int → Prop
  | ints (n : Int) : AxisNumber idx (.ints ⟨[1], [n]⟩) n
  | scalar (v : V) (n : Int) : idx v = some n → AxisNumber idx (.other (.scalar v)) n
  | vector (k : Kind) (v : V) (n : Int) : idx v = some n → AxisNumber idx (.other (.arr k ⟨[1], [v]⟩)) n

/-- What is in the brackets is not exactly one whole number. -/
inductive NotOneAxis (idx : V → Option Int) : AxisVal V → Prop
  | notIndex (v : V) : idx v = none → NotOneAxis idx (.other (.scalar v))
  | notIndexes (k : Kind) (a : Arr V) (v : V) : v ∈ a.data → idx v = none → NotOneAxis idx (.other (.arr k a))
  | manyInts (a : Arr Int) : a.data.length ≠ 1 → NotOneAxis idx (.ints a)
  | many (k : Kind) (a : Arr V) : a.data.length ≠ 1 → NotOneAxis idx (.other (.arr k a))
  | rankInts (a : Arr Int) : a.shape.length ≠ 1 → NotOneAxis idx (.ints a)
  | rank (k : Kind) (a : Arr V) : a.shape.length ≠ 1 → NotOneAxis idx (.other (.arr k a))
  | empty : NotOneAxis idx (.other .empty)

/-- Every element of a value changed by `g` (an `IntArray` by adding `d`). -/
def AxisVal.shift (g : V → V) (d : Int) : AxisVal V → AxisVal V
  | .ints a => .ints ⟨a.shape, a.data.map (fun n => n + d)⟩
  | .other (.scalar v) => .other (.scalar (g v))
  | .other (.arr k a) => .other (.arr k ⟨a.shape, a.data.map g⟩)
  | .other v => .other v

/-- The same right argument with every number in the brackets changed by `g`. -/
def AxArg.shift (g : V → V) (d : Int) : AxArg V α → AxArg V α
  | .plain R => .plain R
  | .axis R A => .axis R (A.shift g d)

theorem mapM_idx_shift (idx : V → Option Int) (g : V → V) (d : Int) (hg : ∀ v, idx (g v) = (idx v).map (fun n => n + d))
    (l : List V) : (l.map g).mapM idx = (l.mapM idx).map (fun r => r.map (fun n => n + d)) := by
  induction l with
  | nil => rfl
  | cons x xs ih =>
    rw [List.map_cons, List.mapM_cons, List.mapM_cons, hg, ih]
    cases idx x <;> simp
    cases xs.mapM idx <;> simp

theorem splitAxis_shift (idx : V → Option Int) (g : V → V) (o d : Int) (hg : ∀ v, idx (g v) = (idx v).map (fun n => n + d))
    (R : AxArg V α) : splitAxis idx (o + d) (R.shift g d) = splitAxis idx o R := by
  have hmap : ∀ l : List Int, (l.map (fun n => n + d)).map (fun n => n - (o + d)) = l.map (fun n => n - o) := by
    intro l; rw [List.map_map]; apply List.map_congr_left; intro x _; simp only [Function.comp]; omega
  match R with
  | .plain R => rfl
  | .axis R (.ints a) =>
    simp only [AxArg.shift, AxisVal.shift, splitAxis, toIdxArray, hmap]
  | .axis R (.other (.scalar v)) =>
    simp only [AxArg.shift, AxisVal.shift, splitAxis, toIdxArray, hg]
    cases idx v with
    | none => rfl
    | some n => simp; omega
  | .axis R (.other .empty) => rfl
  | .axis R (.other (.bad _ _)) => rfl
  | .axis R (.other (.arr k a)) =>
    simp only [AxArg.shift, AxisVal.shift, splitAxis, toIdxArray, List.length_map, mapM_idx_shift idx g d hg]
    by_cases h : a.data.length = 0
    · simp only [if_pos h]
    · simp only [if_neg h]
      cases a.data.mapM idx with
      | none => rfl
      | some r => simp only [Option.map, hmap]

theorem oneAxis_shift (idx : V → Option Int) (g : V → V) (o d ax : Int) (hg : ∀ v, idx (g v) = (idx v).map (fun n => n + d))
    (R : AxArg V α) : oneAxis idx (o + d) (R.shift g d) ax = oneAxis idx o R ax := by
  match R with
  | .plain R => rfl
  | .axis R A =>
    have h := splitAxis_shift idx g o d hg (.axis R A)
    simp only [AxArg.shift, oneAxis] at h ⊢
    rw [h]

theorem mayAxis_shift (idx : V → Option Int) (g : V → V) (o d ax : Int) (hg : ∀ v, idx (g v) = (idx v).map (fun n => n + d))
    (R : AxArg V α) : mayAxis idx (o + d) (R.shift g d) ax = mayAxis idx o R ax := by
  unfold mayAxis
  rw [splitAxis_shift idx g o d hg]

theorem catAxisOf_shift (idx fl : V → Option Int) (g : V → V) (o d : Int) (hg : ∀ v, idx (g v) = (idx v).map (fun n => n + d))
    (hf : ∀ v, fl (g v) = (fl v).map (fun n => n + d)) (R : AxArg V α) :
    catAxisOf idx fl (o + d) (R.shift g d) = catAxisOf idx fl o R := by
  have e : ∀ n : Int, n + d - (o + d) = n - o := by intro n; omega
  have hs : ∀ (R : Val α) (v : V), (match idx (g v) with
        | some n => (.ok (R, .int (n - (o + d))) : Res (Val α × CatAxis))
        | none => match fl (g v) with
          | some n => .ok (R, .frac (n - (o + d)))
          | none => .error .err) = (match idx v with
        | some n => .ok (R, .int (n - o))
        | none => match fl v with
          | some n => .ok (R, .frac (n - o))
          | none => .error .err) := by
    intro R v
    rw [hg, hf]
    cases idx v with
    | some n => simp only [Option.map, e]
    | none =>
      cases fl v with
      | some n => simp only [Option.map, e]
      | none => rfl
  match R with
  | .plain R => rfl
  | .axis R (.ints ⟨s, []⟩) => rfl
  | .axis R (.ints ⟨s, [n]⟩) => simp [AxArg.shift, AxisVal.shift, catAxisOf, oneNumber, e]
  | .axis R (.ints ⟨s, _ :: _ :: _⟩) => rfl
  | .axis R (.other (.scalar v)) => exact hs R v
  | .axis R (.other .empty) => rfl
  | .axis R (.other (.bad _ _)) => rfl
  | .axis R (.other (.arr k ⟨s, []⟩)) => rfl
  | .axis R (.other (.arr k ⟨s, [v]⟩)) => exact hs R v
  | .axis R (.other (.arr k ⟨s, _ :: _ :: _⟩)) => rfl

/-- C104.  The index origin only shifts the numbers in the brackets: with an origin that is larger by `d` and every number in the brackets
larger by `d` (of whatever type: `g` adds `d`), every function that accepts an axis returns the same result or fails in the same way. -/
theorem C104_origin (idx fl : V → Option Int) (g : V → V) (o d ax : Int)
    (hg : ∀ v, idx (g v) = (idx v).map (fun n => n + d)) (hf : ∀ v, fl (g v) = (fl v).map (fun n => n + d))
    (uk : List α → Kind) (zero z : α) (ident : Option α) (f : α → α → ExceptT Fail m α)
    (inv : Option (α → α → ExceptT Fail m α)) (n0 : Int) (LA : Arr Int) (L : List Int) (LV : Val α) (take : Bool) (R : AxArg V α) :
    reverseX idx (o + d) ax (R.shift g d) = reverseX idx o ax R ∧
    rotateX idx (o + d) ax LA (R.shift g d) = rotateX idx o ax LA R ∧
    reductX idx (o + d) ax uk ident f (R.shift g d) = reductX idx o ax uk ident f R ∧
    nwiseX idx (o + d) ax uk zero ident f inv n0 (R.shift g d) = nwiseX idx o ax uk zero ident f inv n0 R ∧
    scanX idx (o + d) ax uk f (R.shift g d) = scanX idx o ax uk f R ∧
    replicateX idx (o + d) ax uk zero L (R.shift g d) = replicateX idx o ax uk zero L R ∧
    expandX idx (o + d) ax uk zero L (R.shift g d) = expandX idx o ax uk zero L R ∧
    takedropX idx (o + d) uk take zero z (some L) (R.shift g d) = takedropX idx o uk take zero z (some L) R ∧
    catenateX idx fl (o + d) uk LV (R.shift g d) = catenateX idx fl o uk LV R ∧
    ravelX idx fl (o + d) zero uk (R.shift g d) = ravelX idx fl o zero uk R := by
  refine ⟨?_, ?_, ?_, ?_, ?_, ?_, ?_, ?_, ?_, ?_⟩
  · unfold reverseX; rw [oneAxis_shift idx g o d ax hg]
  · unfold rotateX; rw [oneAxis_shift idx g o d ax hg]
  · unfold reductX; rw [oneAxis_shift idx g o d ax hg]
  · unfold nwiseX; rw [oneAxis_shift idx g o d ax hg]
  · unfold scanX; rw [oneAxis_shift idx g o d ax hg]
  · unfold replicateX; rw [mayAxis_shift idx g o d ax hg]
  · unfold expandX; rw [mayAxis_shift idx g o d ax hg]
  · unfold takedropX; simp only [splitAxis_shift idx g o d hg]
  · unfold catenateX; rw [catAxisOf_shift idx fl g o d hg hf]
  · unfold ravelX; rw [catAxisOf_shift idx fl g o d hg hf, splitAxis_shift idx g o d hg]

theorem splitAxis_number {idx : V → Option Int} {A : AxisVal V} {n : Int} (h : AxisNumber idx A n) (o : Int) (R : Val α) :
    splitAxis idx o (.axis R A) = .ok (R, some [n - o]) := by
  cases h with
  | ints => rfl
  | scalar v n h => simp [splitAxis, toIdxArray, h]
  | vector k v n h => simp [splitAxis, toIdxArray, h]

theorem catAxisOf_number {idx fl : V → Option Int} {A : AxisVal V} {n : Int} (h : AxisNumber idx A n) (o : Int) (R : Val α) :
    catAxisOf idx fl o (.axis R A) = .ok (R, .int (n - o)) := by
  cases h with
  | ints => rfl
  | scalar v n h => simp [catAxisOf, oneNumber, h]
  | vector k v n h => simp [catAxisOf, oneNumber, h]

section
variable [LawfulMonad m]
/-- C104.  The number `n` in the brackets selects the axis `n - ⎕IO` (counted from 0), whatever axis the symbol stands for (`ax`) and of
whatever numeric type, scalar or vector the number is. -/
theorem C104_number (idx fl : V → Option Int) (A : AxisVal V) (o n ax : Int) (hA : AxisNumber idx A n)
    (uk : List α → Kind) (zero z : α) (ident : Option α) (f : α → α → ExceptT Fail m α)
    (inv : Option (α → α → ExceptT Fail m α)) (n0 : Int) (LA : Arr Int) (L : List Int) (LV R : Val α) (take : Bool) :
    reverseX idx o ax (.axis R A) = reverse R (n - o) ∧
    rotateX idx o ax LA (.axis R A) = rotateVal LA R (n - o) ∧
    reductX idx o ax uk ident f (.axis R A) = reduct uk ident f R (n - o) ∧
    nwiseX idx o ax uk zero ident f inv n0 (.axis R A) = nwise uk zero ident f inv n0 R (n - o) ∧
    scanX idx o ax uk f (.axis R A) = scanfunc uk f R (n - o) ∧
    replicateX idx o ax uk zero L (.axis R A) = replicateVal uk zero L R (n - o) ∧
    expandX idx o ax uk zero L (.axis R A) = expandVal uk zero L R (n - o) ∧
    takedropX idx o uk take zero z (some L) (.axis R A) = (takedrop uk take zero z (some L) R [n - o]).map AxArg.plain ∧
    catenateX idx fl o uk LV (.axis R A) = catenate uk (.int (n - o)) LV R ∧
    ravelX idx fl o zero uk (.axis R A) = ravelAxis zero uk (.ints [n - o]) R := by
  have hs : splitAxis idx o (.axis R A) = .ok (R, some [n - o]) := splitAxis_number hA o R
  have h1 : oneAxis idx o (.axis R A) ax = .ok (R, n - o) := by simp only [oneAxis, hs, bind, Except.bind]; rfl
  have h2 : mayAxis idx o (.axis R A) ax = .ok (R, n - o) := by simp only [mayAxis, hs, bind, Except.bind]; rfl
  refine ⟨?_, ?_, ?_, ?_, ?_, ?_, ?_, ?_, ?_, ?_⟩
  · simp only [reverseX, h1, bind, Except.bind]
  · simp only [rotateX, h1, bind, Except.bind]
  · simp only [reductX, h1, ofRes_ok, pure_bind]
  · simp only [nwiseX, h1, ofRes_ok, pure_bind]
  · simp only [scanX, h1, ofRes_ok, pure_bind]
  · simp only [replicateX, h2, bind, Except.bind]
  · simp only [expandX, h2, bind, Except.bind]
  · simp only [takedropX, hs, bind, Except.bind, pure, Except.pure, Option.getD]
    cases takedrop uk take zero z (some L) R [n - o] <;> rfl
  · simp only [catenateX, catAxisOf_number (fl := fl) hA o R, bind, Except.bind]
  · simp only [ravelX, hs, Option.getD]

end

theorem reverse_axis_mod (k : Kind) (a : Arr α) (j : Int) (h : 1 ≤ j ∧ j ≤ a.shape.length) :
    reverse (.arr k a) (-j) = reverse (.arr k a) ((a.shape.length : Int) - j) := by
  have : normAxis a.shape.length (-j) = normAxis a.shape.length ((a.shape.length : Int) - j) := by
    unfold normAxis
    simp only
    rw [if_pos (show -j < 0 by omega), if_neg (show ¬ ((a.shape.length : Int) - j < 0) by omega),
      show ((a.shape.length : Int) + -j) = a.shape.length - j by omega]
  simp only [reverse, this]

theorem reduceAxis_mod (r : Nat) (j : Int) (h : 1 ≤ j ∧ j ≤ r) : reduceAxis r (-j) = reduceAxis r ((r : Int) - j) := by
  unfold reduceAxis
  simp only
  rw [if_pos (show -j < 0 by omega), if_neg (show ¬ ((r : Int) - j < 0) by omega), show ((r : Int) + -j) = r - j by omega]

theorem normAxis_mod (r : Nat) (j : Int) (h : 1 ≤ j ∧ j ≤ r) : normAxis r (-j) = normAxis r ((r : Int) - j) := by
  unfold normAxis
  simp only
  rw [if_pos (show -j < 0 by omega), if_neg (show ¬ ((r : Int) - j < 0) by omega), show ((r : Int) + -j) = r - j by omega]

theorem commonReplExp_mod (L : List Int) (a : Arr α) (j : Int) (h : 1 ≤ j ∧ j ≤ a.shape.length) :
    commonReplExp L a (-j) = commonReplExp L a ((a.shape.length : Int) - j) := by
  unfold commonReplExp
  simp only
  rw [if_pos (show -j < 0 by omega), if_neg (show ¬ ((a.shape.length : Int) - j < 0) by omega),
    show ((a.shape.length : Int) + -j) = a.shape.length - j by omega]

theorem rotateArr_mod (L : Arr Int) (a : Arr α) (j : Int) (h : 1 ≤ j ∧ j ≤ a.shape.length) :
    rotateArr L a (-j) = rotateArr L a ((a.shape.length : Int) - j) := by
  unfold rotateArr
  split
  · rfl
  · rw [normAxis_mod _ j h]

/-- The functions of an axis agree: `ax` and `ax'` are the same axis of an array of shape `s` for reverse, rotate, reduction, scan, replicate
and expand. -/
theorem axis_mod_all (j : Int) (k : Kind) (a : Arr α) (h : 1 ≤ j ∧ j ≤ a.shape.length)
    (uk : List α → Kind) (zero : α) (ident : Option α) (f : α → α → ExceptT Fail m α) (LA : Arr Int) (L : List Int) :
    reverse (.arr k a) (-j) = reverse (.arr k a) ((a.shape.length : Int) - j) ∧
    rotateVal LA (.arr k a) (-j) = rotateVal LA (.arr k a) ((a.shape.length : Int) - j) ∧
    reduct uk ident f (.arr k a) (-j) = reduct uk ident f (.arr k a) ((a.shape.length : Int) - j) ∧
    scanfunc uk f (.arr k a) (-j) = scanfunc uk f (.arr k a) ((a.shape.length : Int) - j) ∧
    replicateVal uk zero L (.arr k a) (-j) = replicateVal uk zero L (.arr k a) ((a.shape.length : Int) - j) ∧
    expandVal uk zero L (.arr k a) (-j) = expandVal uk zero L (.arr k a) ((a.shape.length : Int) - j) := by
  refine ⟨reverse_axis_mod k a j h, ?_, ?_, ?_, ?_, ?_⟩
  · simp only [rotateVal, rotateArr_mod LA a j h]
  · simp only [reduct, reduceAxis_mod _ j h]
  · simp only [scanfunc, reduceAxis_mod _ j h]
  · simp only [replicateVal, toArrayVal, replicateArr, commonReplExp_mod L a j h]
  · simp only [expandVal, toArrayVal, expandArr, commonReplExp_mod L a j h]

section
variable [LawfulMonad m]
/-- C104.  The symbols without brackets stand for the last axis (`⌽ / \`, axis -1) and the first (`⊖ ⌿ ⍀`, axis 0): writing `⎕IO` plus the rank
minus 1, or `⎕IO`, in brackets after either of them is the same. -/
theorem C104_first_last (idx : V → Option Int) (A0 A1 : AxisVal V) (o : Int) (k : Kind) (a : Arr α) (ax : Int)
    (h0 : AxisNumber idx A0 o) (h1 : AxisNumber idx A1 (o + a.shape.length - 1)) (hr : a.shape ≠ [])
    (uk : List α → Kind) (zero : α) (ident : Option α) (f : α → α → ExceptT Fail m α)
    (inv : Option (α → α → ExceptT Fail m α)) (n0 : Int) (LA : Arr Int) (L : List Int) :
    (reverseX idx o ax (.axis (.arr k a) A0) = reverseX idx o 0 (.plain (.arr k a)) ∧
     rotateX idx o ax LA (.axis (.arr k a) A0) = rotateX idx o 0 LA (.plain (.arr k a)) ∧
     reductX idx o ax uk ident f (.axis (.arr k a) A0) = reductX idx o 0 uk ident f (.plain (.arr k a)) ∧
     nwiseX idx o ax uk zero ident f inv n0 (.axis (.arr k a) A0) = nwiseX idx o 0 uk zero ident f inv n0 (.plain (.arr k a)) ∧
     scanX idx o ax uk f (.axis (.arr k a) A0) = scanX idx o 0 uk f (.plain (.arr k a)) ∧
     replicateX idx o ax uk zero L (.axis (.arr k a) A0) = replicateX idx o 0 uk zero L (.plain (.arr k a)) ∧
     expandX idx o ax uk zero L (.axis (.arr k a) A0) = expandX idx o 0 uk zero L (.plain (.arr k a))) ∧
    (reverseX idx o ax (.axis (.arr k a) A1) = reverseX idx o (-1) (.plain (.arr k a)) ∧
     rotateX idx o ax LA (.axis (.arr k a) A1) = rotateX idx o (-1) LA (.plain (.arr k a)) ∧
     reductX idx o ax uk ident f (.axis (.arr k a) A1) = reductX idx o (-1) uk ident f (.plain (.arr k a)) ∧
     nwiseX idx o ax uk zero ident f inv n0 (.axis (.arr k a) A1) = nwiseX idx o (-1) uk zero ident f inv n0 (.plain (.arr k a)) ∧
     scanX idx o ax uk f (.axis (.arr k a) A1) = scanX idx o (-1) uk f (.plain (.arr k a)) ∧
     replicateX idx o ax uk zero L (.axis (.arr k a) A1) = replicateX idx o (-1) uk zero L (.plain (.arr k a)) ∧
     expandX idx o ax uk zero L (.axis (.arr k a) A1) = expandX idx o (-1) uk zero L (.plain (.arr k a))) := by
  have hl : 0 < a.shape.length := List.length_pos_iff.2 hr
  have p : ∀ x, reverseX idx o x (.plain (.arr k a)) = reverse (.arr k a) x := fun _ => rfl
  have p2 : ∀ x, rotateX idx o x LA (.plain (.arr k a)) = rotateVal LA (.arr k a) x := fun _ => rfl
  have p3 : ∀ x, reductX idx o x uk ident f (.plain (.arr k a)) = reduct uk ident f (.arr k a) x := by
    intro x; simp only [reductX, oneAxis, ofRes_ok, pure_bind]
  have p4 : ∀ x, nwiseX idx o x uk zero ident f inv n0 (.plain (.arr k a)) = nwise uk zero ident f inv n0 (.arr k a) x := by
    intro x; simp only [nwiseX, oneAxis, ofRes_ok, pure_bind]
  have p5 : ∀ x, scanX idx o x uk f (.plain (.arr k a)) = scanfunc uk f (.arr k a) x := by
    intro x; simp only [scanX, oneAxis, ofRes_ok, pure_bind]
  have p6 : ∀ x, replicateX idx o x uk zero L (.plain (.arr k a)) = replicateVal uk zero L (.arr k a) x := fun _ => rfl
  have p7 : ∀ x, expandX idx o x uk zero L (.plain (.arr k a)) = expandVal uk zero L (.arr k a) x := fun _ => rfl
  rw [p, p2, p3, p4, p5, p6, p7, p, p2, p3, p4, p5, p6, p7]
  obtain ⟨a1, a2, a3, a4, a5, a6, a7, _⟩ := C104_number idx idx A0 o o ax h0 uk zero zero ident f inv n0 LA L (.arr k a) (.arr k a) true
  obtain ⟨b1, b2, b3, b4, b5, b6, b7, _⟩ := C104_number idx idx A1 o _ ax h1 uk zero zero ident f inv n0 LA L (.arr k a) (.arr k a) true
  obtain ⟨c1, c2, c3, c4, c5, c6⟩ := axis_mod_all 1 k a ⟨by omega, by omega⟩ uk zero ident f LA L
  have e : o + (a.shape.length : Int) - 1 - o = a.shape.length - 1 := by omega
  rw [e] at b1 b2 b3 b4 b5 b6 b7
  rw [Int.sub_self] at a1 a2 a3 a4 a5 a6 a7
  refine ⟨⟨a1, a2, a3, a4, a5, a6, a7⟩, b1.trans c1.symm, b2.trans c2.symm, b3.trans c3.symm, ?_, b5.trans c4.symm,
    b6.trans c5.symm, b7.trans c6.symm⟩
  rw [b4]
  simp only [nwise, if_true]
  rw [if_neg (show ¬ ((a.shape.length : Int) - 1 = -1) by omega)]

/-- Known deviation: numbers just below the index origin are not rejected, they count the axes from the end: with `⎕IO` 1, `+/[0]A` reduces
the last axis and `⌽[¯1]A` reverses the one before. -/
theorem C104_below_origin (idx : V → Option Int) (A B : AxisVal V) (o j : Int) (k : Kind) (a : Arr α) (ax : Int)
    (hj : 1 ≤ j ∧ j ≤ a.shape.length)
    (hA : AxisNumber idx A (o - j)) (hB : AxisNumber idx B (o + a.shape.length - j))
    (uk : List α → Kind) (zero : α) (ident : Option α) (f : α → α → ExceptT Fail m α) (LA : Arr Int) (L : List Int) :
    reverseX idx o ax (.axis (.arr k a) A) = reverseX idx o ax (.axis (.arr k a) B) ∧
    rotateX idx o ax LA (.axis (.arr k a) A) = rotateX idx o ax LA (.axis (.arr k a) B) ∧
    reductX idx o ax uk ident f (.axis (.arr k a) A) = reductX idx o ax uk ident f (.axis (.arr k a) B) ∧
    scanX idx o ax uk f (.axis (.arr k a) A) = scanX idx o ax uk f (.axis (.arr k a) B) ∧
    replicateX idx o ax uk zero L (.axis (.arr k a) A) = replicateX idx o ax uk zero L (.axis (.arr k a) B) ∧
    expandX idx o ax uk zero L (.axis (.arr k a) A) = expandX idx o ax uk zero L (.axis (.arr k a) B) := by
  obtain ⟨a1, a2, a3, a4, a5, a6, a7, _⟩ := C104_number idx idx A o _ ax hA uk zero zero ident f none 0 LA L (.arr k a) (.arr k a) true
  obtain ⟨b1, b2, b3, b4, b5, b6, b7, _⟩ := C104_number idx idx B o _ ax hB uk zero zero ident f none 0 LA L (.arr k a) (.arr k a) true
  obtain ⟨c1, c2, c3, c4, c5, c6⟩ := axis_mod_all j k a hj uk zero ident f LA L
  have e1 : o - j - o = -j := by omega
  have e2 : o + (a.shape.length : Int) - j - o = a.shape.length - j := by omega
  rw [e1] at a1 a2 a3 a5 a6 a7
  rw [e2] at b1 b2 b3 b5 b6 b7
  exact ⟨a1.trans (c1.trans b1.symm), a2.trans (c2.trans b2.symm), a3.trans (c3.trans b3.symm), a5.trans (c4.trans b5.symm),
    a6.trans (c5.trans b6.symm), a7.trans (c6.trans b7.symm)⟩

/-- C104.  A number that does not select an axis of the array is never accepted: above the last axis, or more than the rank below the origin.
(`+/` of an array of one element does not look at the axis.) -/
theorem C104_outside (idx fl : V → Option Int) (A : AxisVal V) (o d : Int) (k : Kind) (a : Arr α) (ax : Int)
    (hA : AxisNumber idx A (o + d)) (hd : (a.shape.length : Int) ≤ d ∨ d < -a.shape.length) (hr : a.shape ≠ [])
    (uk : List α → Kind) (zero z : α) (ident : Option α) (f : α → α → ExceptT Fail m α)
    (inv : Option (α → α → ExceptT Fail m α)) (n0 : Int) (LA : Arr Int) (L : List Int) (take : Bool) :
    reverseX idx o ax (.axis (.arr k a) A) = .error .err ∧
    (2 ≤ a.shape.length → rotateX idx o ax LA (.axis (.arr k a) A) = .error .err) ∧
    (a.shape ≠ [1] → reductX idx o ax uk ident f (.axis (.arr k a) A) = throw .err) ∧
    nwiseX idx o ax uk zero ident f inv n0 (.axis (.arr k a) A) = throw .err ∧
    scanX idx o ax uk f (.axis (.arr k a) A) = throw .err ∧
    (∃ e, replicateX idx o ax uk zero L (.axis (.arr k a) A) = .error e) ∧
    (∃ e, expandX idx o ax uk zero L (.axis (.arr k a) A) = .error e) ∧
    takedropX idx o uk take zero z (some L) (.axis (.arr k a) A) = .error .err ∧
    (∀ v, catenateX idx fl o uk (.scalar v) (.axis (.arr k a) A) = .error .err) ∧
    ∀ k' b, b.shape.length ≤ a.shape.length → catenateX idx fl o uk (.arr k' b) (.axis (.arr k a) A) = .error .err := by
  have hl : 0 < a.shape.length := List.length_pos_iff.2 hr
  obtain ⟨a1, a2, a3, a4, a5, a6, a7, a8, _⟩ := C104_number idx fl A o _ ax hA uk zero z ident f inv n0 LA L (.arr k a) (.arr k a) take
  have hc : ∀ LV, catenateX idx fl o uk LV (.axis (.arr k a) A) = catenate uk (.int d) LV (.arr k a) := by
    intro LV
    have := (C104_number idx fl A o _ ax hA uk zero z ident f inv n0 LA L LV (.arr k a) take).2.2.2.2.2.2.2.2.1
    rw [this, show o + d - o = d by omega]
  rw [show o + d - o = d by omega] at a1 a2 a3 a4 a5 a6 a7 a8
  have hn : normAxis a.shape.length d = .error .err := by
    unfold normAxis; simp only
    rw [if_pos]
    by_cases h : d < 0
    · rw [if_pos h]; omega
    · rw [if_neg h]; omega
  have hd' : (a.shape.length : Int) ≤ d ∨ d < -a.shape.length := hd
  have hcr : ∃ e, commonReplExp L a d = .error e := by
    unfold commonReplExp
    rw [if_neg hr]
    simp only
    by_cases h : d < 0
    · rw [if_pos h, if_pos (by omega)]; exact ⟨_, rfl⟩
    · rw [if_neg h, if_neg h]
      have : sliceAt a.shape d.toNat = .error .panic := by
        unfold sliceAt
        rw [List.getElem?_eq_none (by omega)]
      rw [this]
      exact ⟨_, rfl⟩
  refine ⟨?_, ?_, ?_, ?_, ?_, ?_, ?_, ?_, ?_, ?_⟩
  · rw [a1]; simp only [reverse, hn, bind, Except.bind]
  · intro h2
    rw [a2]
    have : rotateArr LA a d = .error .err := by
      unfold rotateArr
      split
      · rename_i hs; rw [hs] at h2; simp at h2
      · simp only [hn, bind, Except.bind]
    simp only [rotateVal, this, bind, Except.bind]
  · intro h1
    rw [a3]
    exact C25_bad_axis uk ident f k a h1 hr d hd'
  · rw [a4]
    simp only [nwise]
    rw [if_pos]
    by_cases h : d = -1
    · omega
    · rw [if_neg h]; omega
  · rw [a5]
    have : reduceAxis a.shape.length d = .error .err := by
      have := hn; unfold normAxis at this; unfold reduceAxis; exact this
    simp only [scanfunc, if_neg hr, this]
    exact ofRes_bind_error _ _
  · obtain ⟨e, he⟩ := hcr
    rw [a6]
    exact ⟨e, by simp only [replicateVal, toArrayVal, replicateArr, he, bind, Except.bind]⟩
  · obtain ⟨e, he⟩ := hcr
    rw [a7]
    exact ⟨e, by simp only [expandVal, toArrayVal, expandArr, he, bind, Except.bind]⟩
  · rw [a8]
    have := C05_reject take z L a [d] (Or.inr (Or.inr ⟨d, by simp, by omega⟩))
    simp only [takedrop, this, bind, Except.bind, Except.map]
  · intro v
    rw [hc]
    exact C12_reject_axis uk d _ _ (by simp only [Val.rank]; omega)
  · intro k' b hb
    rw [hc]
    exact C12_reject_axis uk d _ _ (by simp only [Val.rank]; omega)

/-- C104.  Take, drop, catenate and n-wise reduction also reject the numbers below the index origin (n-wise reduction except the one that
stands for the last axis). -/
theorem C104_below_origin_rejected (idx fl : V → Option Int) (A : AxisVal V) (o d : Int) (k : Kind) (a : Arr α) (ax : Int)
    (hA : AxisNumber idx A (o + d)) (hd : d < 0)
    (uk : List α → Kind) (zero z : α) (ident : Option α) (f : α → α → ExceptT Fail m α)
    (inv : Option (α → α → ExceptT Fail m α)) (n0 : Int) (L : List Int) (LV R : Val α) (take : Bool) :
    takedropX idx o uk take zero z (some L) (.axis (.arr k a) A) = .error .err ∧
    catenateX idx fl o uk LV (.axis R A) = .error .err ∧
    (d ≠ -1 → nwiseX idx o ax uk zero ident f inv n0 (.axis (.arr k a) A) = throw .err) := by
  obtain ⟨_, _, _, a4, _, _, _, a8, _⟩ := C104_number idx fl A o _ ax hA uk zero z ident f inv n0 ⟨[], []⟩ L LV (.arr k a) take
  have hc := (C104_number idx fl A o _ ax hA uk zero z ident f inv n0 ⟨[], []⟩ L LV R take).2.2.2.2.2.2.2.2.1
  rw [show o + d - o = d by omega] at a4 a8 hc
  refine ⟨?_, ?_, ?_⟩
  · rw [a8]
    have := C05_reject take z L a [d] (Or.inr (Or.inr ⟨d, by simp, by omega⟩))
    simp only [takedrop, this, bind, Except.bind, Except.map]
  · rw [hc]
    exact C12_reject_axis uk d _ _ (by omega)
  · intro h1
    rw [a4]
    simp only [nwise]
    rw [if_neg h1, if_pos (by omega)]

end

theorem mapM_none_of_mem (idx : V → Option Int) (l : List V) (v : V) (h : v ∈ l) (hv : idx v = none) : l.mapM idx = none := by
  induction l with
  | nil => cases h
  | cons x xs ih =>
    rw [List.mapM_cons]
    rcases List.mem_cons.1 h with rfl | h
    · rw [hv]; rfl
    · rw [ih h]
      cases idx x <;> rfl

theorem mapM_length_opt (idx : V → Option Int) (l : List V) (r : List Int) (h : l.mapM idx = some r) : r.length = l.length := by
  induction l generalizing r with
  | nil => cases h; rfl
  | cons x xs ih =>
    rw [List.mapM_cons] at h
    cases hx : idx x with
    | none => rw [hx] at h; cases h
    | some n =>
      cases hxs : xs.mapM idx with
      | none => rw [hx, hxs] at h; cases h
      | some r' =>
        rw [hx, hxs] at h
        cases h
        simp [ih r' hxs]

theorem oneAxis_not (idx : V → Option Int) (A : AxisVal V) (h : NotOneAxis idx A) (o ax : Int) (R : Val α) :
    ∃ e, oneAxis idx o (.axis R A) ax = .error e := by
  have key : ∀ r : Res (Val α × Option (List Int)), splitAxis idx o (.axis R A) = r →
      (∀ R' l, r = .ok (R', some l) → l.length ≠ 1) → ∃ e, oneAxis idx o (.axis R A) ax = .error e := by
    intro r hr hl
    simp only [oneAxis, hr]
    match r, hl with
    | .error e, _ => exact ⟨e, rfl⟩
    | .ok (R', none), _ => exact ⟨_, rfl⟩
    | .ok (R', some []), _ => exact ⟨_, rfl⟩
    | .ok (R', some [n]), hl => exact absurd rfl (hl R' [n] rfl)
    | .ok (R', some (_ :: _ :: _)), _ => exact ⟨_, rfl⟩
  cases h with
  | notIndex v hv => exact key (.error .err) (by simp [splitAxis, toIdxArray, hv]) (by intro R' l h; cases h)
  | notIndexes k a v hm hv =>
    have h0 : a.data.length ≠ 0 := by intro h; rw [List.length_eq_zero_iff.1 h] at hm; cases hm
    exact key (.error .err) (by simp [splitAxis, toIdxArray, h0, mapM_none_of_mem idx a.data v hm hv]) (by intro R' l h; cases h)
  | manyInts a hn =>
    refine key _ rfl ?_
    intro R' l h
    simp only [splitAxis, toIdxArray] at h
    by_cases hs : a.shape.length ≠ 1
    · rw [if_pos hs] at h; cases h
    · rw [if_neg hs] at h; cases h; simpa using hn
  | many k a hn =>
    refine key _ rfl ?_
    intro R' l h
    simp only [splitAxis, toIdxArray] at h
    by_cases h0 : a.data.length = 0
    · simp [h0] at h
    · simp only [if_neg h0] at h
      cases hm : a.data.mapM idx with
      | none => rw [hm] at h; cases h
      | some r =>
        rw [hm] at h
        simp only [Option.map] at h
        by_cases hs : a.shape.length ≠ 1
        · rw [if_pos hs] at h; cases h
        · rw [if_neg hs] at h; cases h
          rw [List.length_map, mapM_length_opt idx _ _ hm]; exact hn
  | rankInts a hn => exact key (.error .err) (by simp [splitAxis, toIdxArray, hn]) (by intro R' l h; cases h)
  | rank k a hn =>
    refine key _ rfl ?_
    intro R' l h
    simp only [splitAxis, toIdxArray] at h
    by_cases h0 : a.data.length = 0
    · simp [h0] at h
    · simp only [if_neg h0] at h
      cases hm : a.data.mapM idx with
      | none => rw [hm] at h; cases h
      | some r => rw [hm] at h; simp only [Option.map, if_pos hn] at h; cases h
  | empty => exact key (.ok (R, none)) rfl (by intro R' l h; cases h)

/-- C104.  If there is anything but exactly one whole number in the brackets, then reverse, rotate, reduction, n-wise reduction and scan fail,
without calling `f`. -/
theorem C104_not_one_axis [LawfulMonad m] (idx : V → Option Int) (A : AxisVal V) (h : NotOneAxis idx A) (o ax : Int) (R : Val α)
    (uk : List α → Kind) (zero : α) (ident : Option α) (f : α → α → ExceptT Fail m α)
    (inv : Option (α → α → ExceptT Fail m α)) (n0 : Int) (LA : Arr Int) :
    ∃ e, reverseX idx o ax (.axis R A) = .error e ∧
    rotateX idx o ax LA (.axis R A) = .error e ∧
    reductX idx o ax uk ident f (.axis R A) = throw e ∧
    nwiseX idx o ax uk zero ident f inv n0 (.axis R A) = throw e ∧
    scanX idx o ax uk f (.axis R A) = throw e := by
  obtain ⟨e, he⟩ := oneAxis_not idx A h o ax R
  refine ⟨e, ?_, ?_, ?_, ?_, ?_⟩
  · simp only [reverseX, he, bind, Except.bind]
  · simp only [rotateX, he, bind, Except.bind]
  · simp only [reductX, he]; exact ofRes_bind_error _ _
  · simp only [nwiseX, he]; exact ofRes_bind_error _ _
  · simp only [scanX, he]; exact ofRes_bind_error _ _

/-- C104.  More than one number in the brackets is also rejected by replicate, expand and catenate, and a value that is not a number by
catenate. -/
theorem C104_several (idx fl : V → Option Int) (o ax : Int) (uk : List α → Kind) (zero : α) (L : List Int) (LV R : Val α) (A : AxisVal V)
    (h : (∃ a, A = .ints a ∧ 2 ≤ a.data.length) ∨ ∃ k a, A = .other (.arr k a) ∧ 2 ≤ a.data.length) :
    (∃ e, replicateX idx o ax uk zero L (.axis R A) = .error e) ∧
    (∃ e, expandX idx o ax uk zero L (.axis R A) = .error e) ∧
    catenateX idx fl o uk LV (.axis R A) = .error .err := by
  have hn : oneNumber A = none := by
    rcases h with ⟨⟨s, d⟩, rfl, h⟩ | ⟨k, ⟨s, d⟩, rfl, h⟩
    · match d, h with
      | _ :: _ :: _, _ => rfl
    · match d, h with
      | _ :: _ :: _, _ => rfl
  have hs : (∃ e, splitAxis idx o (.axis R A) = .error e) ∨ ∃ x y l, splitAxis idx o (.axis R A) = .ok (R, some (x :: y :: l)) := by
    rcases h with ⟨a, rfl, h⟩ | ⟨k, a, rfl, h⟩
    · by_cases h1 : a.shape.length ≠ 1
      · left; exact ⟨.err, by simp only [splitAxis, toIdxArray, if_pos h1]⟩
      · right
        match hd : a.data, h with
        | x :: y :: l, _ => exact ⟨x - o, y - o, l.map (fun n => n - o), by simp only [splitAxis, toIdxArray, if_neg h1, hd, List.map_cons]⟩
    · have h0 : ¬ a.data.length = 0 := by omega
      cases hm : a.data.mapM idx with
      | none => left; exact ⟨.err, by simp only [splitAxis, toIdxArray, if_neg h0, hm, Option.map]⟩
      | some r =>
        have hr := mapM_length_opt idx _ _ hm
        by_cases h1 : a.shape.length ≠ 1
        · left; exact ⟨.err, by simp only [splitAxis, toIdxArray, if_neg h0, hm, Option.map, if_pos h1]⟩
        · right
          match r, hr with
          | [], hr => simp at hr; omega
          | [_], hr => simp at hr; omega
          | x :: y :: l, _ => exact ⟨x - o, y - o, l.map (fun n => n - o), by simp only [splitAxis, toIdxArray, if_neg h0, hm, Option.map, if_neg h1, List.map_cons]⟩
  have hm : ∃ e, mayAxis idx o (.axis R A) ax = .error e := by
    rcases hs with ⟨e, he⟩ | ⟨x, y, l, hl⟩
    · exact ⟨e, by simp only [mayAxis, he, bind, Except.bind]⟩
    · exact ⟨.err, by simp only [mayAxis, hl, bind, Except.bind]; rfl⟩
  obtain ⟨e, he⟩ := hm
  refine ⟨⟨e, ?_⟩, ⟨e, ?_⟩, ?_⟩
  · simp only [replicateX, he, bind, Except.bind]
  · simp only [expandX, he, bind, Except.bind]
  · simp only [catenateX, catAxisOf, hn, bind, Except.bind]

/-- C104, element by element: `⌽[n]A` and `⊖[n]A` mirror the axis `n - ⎕IO` and no other. -/
theorem C104_reverse (idx : V → Option Int) (A : AxisVal V) (o ax : Int) (k : Kind) (a : Arr α) (d : Nat) (hw : a.WF)
    (hd : d < a.shape.length) (hA : AxisNumber idx A (o + d)) :
    ∃ r, reverseX idx o ax (.axis (.arr k a) A) = .ok (.arr k r) ∧ r.WF ∧ r.shape = a.shape ∧
      ∀ i, InB a.shape i → r.get? i = a.get? (i.set d (a.shape.getD d 0 - 1 - i.getD d 0)) := by
  obtain ⟨r, h1, h2, h3, h4⟩ := C08_reverse a d hw hd
  refine ⟨r, ?_, h2, h3, fun i hi => (h4 i hi).1⟩
  have hs := splitAxis_number hA o (Val.arr k a)
  rw [show o + (d : Int) - o = d by omega] at hs
  have h5 : oneAxis idx o (.axis (.arr k a) A) ax = .ok (.arr k a, (d : Int)) := by simp only [oneAxis, hs, bind, Except.bind]; rfl
  have hn : normAxis a.shape.length (d : Int) = .ok d := by
    unfold normAxis; simp only
    rw [if_neg (by omega), if_neg (by omega)]; rfl
  simp only [reverseX, h5, bind, Except.bind, reverse, hn, h1]
  rfl

/-- C104, element by element: `f/[n]A` and `f⌿[n]A` fold, from the right, the vectors of `A` along the axis `n - ⎕IO`. -/
theorem C104_reduce (idx : V → Option Int) (A : AxisVal V) (o ax : Int) (k : Kind) (a : Arr α) (d : Nat) (hw : a.WF)
    (hr : 2 ≤ a.shape.length) (hd : d < a.shape.length) (hn : 2 ≤ a.shape.getD d 0) (hA : AxisNumber idx A (o + d))
    (uk : List α → Kind) (ident : Option α) (f : α → α → α) :
    ∃ r : Arr α, reductX (m := Id) idx o ax uk ident (fun x y => pure (f x y)) (.axis (.arr k a) A) = pure (.arr (uk r.data) r) ∧
      r.WF ∧ r.shape = a.shape.eraseIdx d ∧
      ∀ i, InB r.shape i → ∀ init last, a.line d i = init ++ [last] → r.get? i = some (init.foldr f last) := by
  obtain ⟨r, h1, h2⟩ := C25_element uk ident f k a hw hr (d : Int) d (Or.inl ⟨rfl, hd⟩) hn
  refine ⟨r, ?_, h2⟩
  rw [← h1]
  have hs := splitAxis_number hA o (Val.arr k a)
  rw [show o + (d : Int) - o = d by omega] at hs
  have h5 : oneAxis idx o (.axis (.arr k a) A) ax = .ok (.arr k a, (d : Int)) := by simp only [oneAxis, hs, bind, Except.bind]; rfl
  simp only [reductX, h5]
  rfl

/-- C104.  Take and drop accept a vector of axes: `L↑[X]A` applies the counts to the axes `X - ⎕IO` in this order (C05, C06); axes that are repeated
or do not exist are rejected. -/
theorem C104_take_axes (idx : V → Option Int) (o : Int) (k : Kind) (a : Arr α) (X : List Int) (uk : List α → Kind) (zero z : α)
    (L : List Int) (take : Bool) :
    takedropX idx o uk take zero z (some L) (.axis (.arr k a) (.ints ⟨[X.length], X.map (fun x => o + x)⟩)) =
      ((takedropArr take z L a X).map (fun r => AxArg.plain (.arr k r))) ∧
    ((¬ X.Nodup ∨ ∃ x ∈ X, x < 0 ∨ (a.shape.length : Int) ≤ x) →
      takedropX idx o uk take zero z (some L) (.axis (.arr k a) (.ints ⟨[X.length], X.map (fun x => o + x)⟩)) = .error .err) := by
  have e : (X.map (fun x => o + x)).map (fun n => n - o) = X := by
    rw [List.map_map]
    have : ((fun n => n - o) ∘ fun x => o + x) = (id : Int → Int) := by funext x; simp only [Function.comp, id]; omega
    rw [this, List.map_id]
  have h1 : takedropX idx o uk take zero z (some L) (.axis (.arr k a) (.ints ⟨[X.length], X.map (fun x => o + x)⟩)) =
      ((takedropArr take z L a X).map (fun r => AxArg.plain (.arr k r))) := by
    simp only [takedropX, splitAxis, toIdxArray, e, takedrop, bind, Except.bind, pure, Except.pure, Option.getD, List.length_cons,
      List.length_nil]
    rw [if_neg (by omega)]
    simp only
    cases takedropArr take z L a X <;> rfl
  refine ⟨h1, fun h => ?_⟩
  rw [h1, C05_reject take z L a X (Or.inr h)]
  rfl

/-- C104.  A fractional number `v` in the brackets of `,` with floor `⎕IO + d` inserts a new axis of length two before the axis that its
ceiling names: the first cell along it is the left argument, the second the right one. -/
theorem C104_laminate (idx fl : V → Option Int) (v : V) (o d : Int) (hi : idx v = none) (hf : fl v = some (o + d))
    (uk : List α → Kind) (kl kr : Kind) (a b : Arr α) (hwa : a.WF) (hwb : b.WF)
    (hs : a.shape = b.shape) (hne : a.shape ≠ []) (hd : -1 ≤ d ∧ d < a.shape.length) :
    ∃ kd r, catenateX idx fl o uk (.arr kl a) (.axis (.arr kr b) (.other (.scalar v))) = .ok (.arr kd r) ∧ r.WF ∧
      r.shape = a.shape.insertIdx (d + 1).toNat 2 ∧
      ∀ i, InB r.shape i → InB a.shape (i.eraseIdx (d + 1).toNat) ∧
        r.get? i = if i.getD (d + 1).toNat 0 = 0 then a.get? (i.eraseIdx (d + 1).toNat) else b.get? (i.eraseIdx (d + 1).toNat) := by
  obtain ⟨kd, r, h⟩ := C13_laminate uk kl kr d a b hwa hwb hs hne hd
  refine ⟨kd, r, ?_, h.2⟩
  rw [← h.1]
  simp only [catenateX, catAxisOf, oneNumber, hi, hf, bind, Except.bind]
  rw [show o + d - o = d by omega]

/-- C104.  Empty brackets (`⍳0`): replicate, expand, take and drop do as without brackets. -/
theorem C104_empty_brackets (idx : V → Option Int) (o ax : Int) (uk : List α → Kind) (zero z : α) (L : List Int) (take : Bool) (R : Val α) :
    replicateX idx o ax uk zero L (.axis R (.other .empty)) = replicateX idx o ax uk zero L (.plain R) ∧
    expandX idx o ax uk zero L (.axis R (.other .empty)) = expandX idx o ax uk zero L (.plain R) ∧
    takedropX idx o uk take zero z (some L) (.axis R (.other .empty)) = takedropX idx o uk take zero z (some L) (.plain R) :=
  ⟨rfl, rfl, rfl⟩

/-- Known deviation: the axis of a rotation of a vector is not checked: `1⌽[7]1 2 3` is `1⌽1 2 3`. -/
theorem C104_rotate_vector (idx : V → Option Int) (A : AxisVal V) (o n ax : Int) (hA : AxisNumber idx A n) (k : Kind) (LA : Arr Int)
    (xs : List α) :
    rotateX idx o ax LA (.axis (.arr k ⟨[xs.length], xs⟩) A) = rotateX idx o ax LA (.plain (.arr k ⟨[xs.length], xs⟩)) := by
  have hs := splitAxis_number hA o (Val.arr k (⟨[xs.length], xs⟩ : Arr α))
  simp only [rotateX, oneAxis, hs, bind, Except.bind, pure, Except.pure]
  rfl

/-- Known deviation: an empty left argument of take and drop returns the right argument together with its axis specification, which is not a
value that any other function accepts: `(⍳0)↑[1]A`. -/
theorem C104_take_none (idx : V → Option Int) (o : Int) (uk : List α → Kind) (take : Bool) (zero z : α) (R : Val α) (A : AxisVal V) :
    takedropX idx o uk take zero z none (.axis R A) = .ok (.axis R A) := rfl

/-- Known deviation: an array without elements, which is neither `⍳0` nor an array of integers, in the brackets crashes. -/
theorem C104_elementless (idx : V → Option Int) (o ax : Int) (k : Kind) (s : List Nat) (R : Val α) :
    reverseX idx o ax (.axis R (.other (.arr k ⟨s, []⟩))) = .error .panic := rfl

/-- elements of the brackets in the examples: halves of whole numbers -/
def halfIdx (n : Int) : Option Int := if n % 2 = 0 then some (n / 2) else none

example : AxisNumber halfIdx (.other (.scalar 4)) 2 := .scalar 4 2 rfl
example : NotOneAxis halfIdx (.other (.scalar 5)) := .notIndex 5 rfl
/-- `⌽[1.0]2 3⍴⍳6` with the origin 1 reverses the first axis; with the origin 0 the second -/
example : reverseX halfIdx 1 (-1) (.axis (.arr .int ⟨[2, 3], [1, 2, 3, 4, 5, 6]⟩) (.other (.scalar 2))) =
      .ok (.arr .int ⟨[2, 3], [4, 5, 6, 1, 2, 3]⟩) ∧
    reverseX halfIdx 0 0 (.axis (.arr .int ⟨[2, 3], [1, 2, 3, 4, 5, 6]⟩) (.other (.scalar 2))) =
      .ok (.arr .int ⟨[2, 3], [3, 2, 1, 6, 5, 4]⟩) := ⟨rfl, rfl⟩
/-- `1 2,[0.5]3 4` and `1 2,[1.5]3 4` with the origin 1 -/
example : catenateX halfIdx (fun n => some (n / 2)) 1 (fun _ => .int) (.arr .int ⟨[2], [1, 2]⟩)
      (.axis (.arr .int ⟨[2], [3, 4]⟩) (.other (.scalar 1))) = .ok (.arr .int ⟨[2, 2], [1, 2, 3, 4]⟩) ∧
    catenateX halfIdx (fun n => some (n / 2)) 1 (fun _ => .int) (.arr .int ⟨[2], [1, 2]⟩)
      (.axis (.arr .int ⟨[2], [3, 4]⟩) (.other (.scalar 3))) = .ok (.arr .int ⟨[2, 2], [1, 3, 2, 4]⟩) := ⟨rfl, rfl⟩

end Iv

import Verif.Model.Complex
import Mathlib.Tactic.FieldSimp
import Mathlib.Tactic.Ring
import Mathlib.Tactic.Linarith
import Mathlib.Tactic.ByContra
import Mathlib.Tactic.NormNum
import Mathlib.Algebra.Order.Field.Basic
import Mathlib.Analysis.Real.Sqrt
import Mathlib.Algebra.Order.Archimedean.Real.Basic
/-
C98: complex arithmetic.  Every operation of the big numbers computes the mathematical value, leaves its arguments alone (except the direction `×c`, which
overwrites its argument) and gives a result in new memory; the complex floor is the Gaussian integer of the unit diamond.
-/
set_option linter.unusedSimpArgs false
set_option linter.unusedSectionVars false
namespace Iv
namespace Cplx
variable {K : Type} [Field K] [LinearOrder K] [FloorRing K]

/-- the complex number two pointers stand for -/
def FHeap.val (h : FHeap K) (z : BC) : Cx K := ⟨h.get z.re, h.get z.im⟩
/-- a number in memory: two different allocated big.Floats -/
def FHeap.Has (h : FHeap K) (z : BC) : Prop := z.re < h.next ∧ z.im < h.next ∧ z.re ≠ z.im

/-- the product of complex numbers -/
instance : Mul (Cx K) := ⟨fun a b => ⟨a.re * b.re - a.im * b.im, a.re * b.im + a.im * b.re⟩⟩

theorem cx_mul (a b : Cx K) : a * b = ⟨a.re * b.re - a.im * b.im, a.re * b.im + a.im * b.re⟩ := rfl

/-- nothing that existed before changes -/
structure Keeps (h h' : FHeap K) : Prop where
  le : h.next ≤ h'.next
  same : ∀ i, i < h.next → h'.get i = h.get i

/-- a new number with value `v`: its parts were not allocated before, and nothing that existed before changes -/
structure Result (h : FHeap K) (z : BC) (h' : FHeap K) (v : Cx K) : Prop where
  value : h'.val z = v
  re : h.next ≤ z.re
  im : h.next ≤ z.im
  has : h'.Has z
  keeps : Keeps h h'

/-- the operation gives a new number with value `v` and changes nothing -/
def Gives (m : FM K BC) (h : FHeap K) (v : Cx K) : Prop := Result h (m h).1 (m h).2 v

theorem apart {i n : Nat} (hi : i < n) : (i = n) = False ∧ ∀ k, (i = n + k) = False := by
  refine ⟨?_, fun k => ?_⟩
  · simp; omega
  · simp; omega

/-- `+c`: the conjugate -/
theorem C98_conj (c : BC) (h : FHeap K) (hc : h.Has c) : Gives (conj c) h ⟨h.get c.re, -h.get c.im⟩ := by
  obtain ⟨a1, a2⟩ := apart hc.1
  obtain ⟨b1, b2⟩ := apart hc.2.1
  refine ⟨?_, ?_, ?_, ⟨?_, ?_, ?_⟩, ⟨?_, fun i hi => by obtain ⟨i1, i2⟩ := apart hi; simp [conj, cpy, rd, wr, new, bind, StateT.bind, pure, StateT.pure, FHeap.val, Nat.add_assoc, *]⟩⟩
  all_goals simp [conj, cpy, rd, wr, new, bind, StateT.bind, pure, StateT.pure, FHeap.val, Nat.add_assoc, a1, a2, b1, b2]

/-- `a+b` -/
theorem C98_add (c r : BC) (h : FHeap K) (hc : h.Has c) (hr : h.Has r) : Gives (add2 c r) h ⟨h.get c.re + h.get r.re, h.get c.im + h.get r.im⟩ := by
  obtain ⟨a1, a2⟩ := apart hc.1
  obtain ⟨b1, b2⟩ := apart hc.2.1
  obtain ⟨c1, c2⟩ := apart hr.1
  obtain ⟨d1, d2⟩ := apart hr.2.1
  refine ⟨?_, ?_, ?_, ⟨?_, ?_, ?_⟩, ⟨?_, fun i hi => by obtain ⟨i1, i2⟩ := apart hi; simp [add2, cpy, rd, wr, new, bind, StateT.bind, pure, StateT.pure, FHeap.val, Nat.add_assoc, *]⟩⟩
  all_goals simp [add2, cpy, rd, wr, new, bind, StateT.bind, pure, StateT.pure, FHeap.val, Nat.add_assoc, a1, a2, b1, b2, c1, c2, d1, d2]

/-- `a-b` -/
theorem C98_sub (c r : BC) (h : FHeap K) (hc : h.Has c) (hr : h.Has r) : Gives (sub2 c r) h ⟨h.get c.re - h.get r.re, h.get c.im - h.get r.im⟩ := by
  obtain ⟨a1, a2⟩ := apart hc.1
  obtain ⟨b1, b2⟩ := apart hc.2.1
  obtain ⟨c1, c2⟩ := apart hr.1
  obtain ⟨d1, d2⟩ := apart hr.2.1
  refine ⟨?_, ?_, ?_, ⟨?_, ?_, ?_⟩, ⟨?_, fun i hi => by obtain ⟨i1, i2⟩ := apart hi; simp [sub2, cpy, rd, wr, new, bind, StateT.bind, pure, StateT.pure, FHeap.val, Nat.add_assoc, *]⟩⟩
  all_goals simp [sub2, cpy, rd, wr, new, bind, StateT.bind, pure, StateT.pure, FHeap.val, Nat.add_assoc, a1, a2, b1, b2, c1, c2, d1, d2]

/-- `-c` -/
theorem C98_neg (c : BC) (h : FHeap K) (hc : h.Has c) : Gives (neg c) h ⟨-h.get c.re, -h.get c.im⟩ := by
  obtain ⟨a1, a2⟩ := apart hc.1
  obtain ⟨b1, b2⟩ := apart hc.2.1
  refine ⟨?_, ?_, ?_, ⟨?_, ?_, ?_⟩, ⟨?_, fun i hi => by obtain ⟨i1, i2⟩ := apart hi; simp [neg, cpy, rd, wr, new, bind, StateT.bind, pure, StateT.pure, FHeap.val, Nat.add_assoc, *]⟩⟩
  all_goals simp [neg, cpy, rd, wr, new, bind, StateT.bind, pure, StateT.pure, FHeap.val, Nat.add_assoc, a1, a2, b1, b2]

/-- `a×b`: (ac−bd) + (ad+bc)i -/
theorem C98_mul (l r : BC) (h : FHeap K) (hc : h.Has l) (hr : h.Has r) : Gives (mul2 l r) h ⟨h.get l.re * h.get r.re - h.get l.im * h.get r.im, h.get l.re * h.get r.im + h.get l.im * h.get r.re⟩ := by
  obtain ⟨a1, a2⟩ := apart hc.1
  obtain ⟨b1, b2⟩ := apart hc.2.1
  obtain ⟨c1, c2⟩ := apart hr.1
  obtain ⟨d1, d2⟩ := apart hr.2.1
  refine ⟨?_, ?_, ?_, ⟨?_, ?_, ?_⟩, ⟨?_, fun i hi => by obtain ⟨i1, i2⟩ := apart hi; simp [mul2, cpy, rd, wr, new, bind, StateT.bind, pure, StateT.pure, FHeap.val, Nat.add_assoc, *]⟩⟩
  all_goals simp [mul2, cpy, rd, wr, new, bind, StateT.bind, pure, StateT.pure, FHeap.val, Nat.add_assoc, a1, a2, b1, b2, c1, c2, d1, d2]

/-- `⌊c` with big numbers is the floor of the complex numbers by value, when the parts are exact as float64 -/
theorem C98_big_floor (f64 : K → K) (c : BC) (h : FHeap K) (hc : h.Has c) (h1 : f64 (h.get c.re) = h.get c.re) (h2 : f64 (h.get c.im) = h.get c.im) :
    Gives (bfloor f64 c) h (floor (h.val c)) := by
  obtain ⟨a1, a2⟩ := apart hc.1
  obtain ⟨b1, b2⟩ := apart hc.2.1
  by_cases p : Int.fract (h.get c.re) + Int.fract (h.get c.im) < 1
  · refine ⟨?_, ?_, ?_, ⟨?_, ?_, ?_⟩, ⟨?_, fun i hi => by
      obtain ⟨i1, i2⟩ := apart hi
      simp [bfloor, floorPart, subPart, addPart, rd, wr, new, bind, StateT.bind, pure, StateT.pure, Nat.add_assoc, *]⟩⟩
    all_goals simp [bfloor, floorPart, subPart, addPart, rd, wr, new, bind, StateT.bind, pure, StateT.pure, FHeap.val, Nat.add_assoc, floor, *]
  by_cases q : Int.fract (h.get c.re) < Int.fract (h.get c.im)
  · refine ⟨?_, ?_, ?_, ⟨?_, ?_, ?_⟩, ⟨?_, fun i hi => by
      obtain ⟨i1, i2⟩ := apart hi
      simp [bfloor, floorPart, subPart, addPart, rd, wr, new, bind, StateT.bind, pure, StateT.pure, Nat.add_assoc, *]⟩⟩
    all_goals simp [bfloor, floorPart, subPart, addPart, rd, wr, new, bind, StateT.bind, pure, StateT.pure, FHeap.val, Nat.add_assoc, floor, not_le_of_gt q, *]
  · refine ⟨?_, ?_, ?_, ⟨?_, ?_, ?_⟩, ⟨?_, fun i hi => by
      obtain ⟨i1, i2⟩ := apart hi
      simp [bfloor, floorPart, subPart, addPart, rd, wr, new, bind, StateT.bind, pure, StateT.pure, Nat.add_assoc, *]⟩⟩
    all_goals simp [bfloor, floorPart, subPart, addPart, rd, wr, new, bind, StateT.bind, pure, StateT.pure, FHeap.val, Nat.add_assoc, floor, le_of_not_gt q, *]

/-- what `div_` computes -/
theorem divPart_run (a b c d : Nat) (h : FHeap K) (ha : a < h.next) (hb : b < h.next) (hc : c < h.next) (hd : d < h.next) :
    ∃ (h' : FHeap K) (z : BC), divPart a b c d h = ((z.re, z.im), h') ∧ h.next ≤ z.re ∧ h.next ≤ z.im ∧ h'.Has z ∧ Keeps h h' ∧
      h'.val z = ⟨(h.get a + h.get b * (h.get d / h.get c)) * (1 / (h.get d * (h.get d / h.get c) + h.get c)),
        (h.get b - h.get a * (h.get d / h.get c)) * (1 / (h.get d * (h.get d / h.get c) + h.get c))⟩ := by
  obtain ⟨a1, a2⟩ := apart ha
  obtain ⟨b1, b2⟩ := apart hb
  obtain ⟨c1, c2⟩ := apart hc
  obtain ⟨d1, d2⟩ := apart hd
  refine ⟨(divPart a b c d h).2, ⟨(divPart a b c d h).1.1, (divPart a b c d h).1.2⟩, rfl, ?_⟩
  by_cases p : h.get d / h.get c = 0
  · refine ⟨?_, ?_, ⟨?_, ?_, ?_⟩, ⟨?_, fun i hi => by
      obtain ⟨i1, i2⟩ := apart hi
      simp [divPart, rd, wr, new, bind, StateT.bind, pure, StateT.pure, Nat.add_assoc, *]⟩, ?_⟩
    case refine_7 =>
      have e1 : h.get b / h.get c * h.get d = h.get b * (h.get d / h.get c) := by ring
      have e2 : h.get a / h.get c * h.get d = h.get a * (h.get d / h.get c) := by ring
      simp [divPart, rd, wr, new, bind, StateT.bind, pure, StateT.pure, FHeap.val, Nat.add_assoc, *]
    all_goals simp [divPart, rd, wr, new, bind, StateT.bind, pure, StateT.pure, Nat.add_assoc, *]
  · refine ⟨?_, ?_, ⟨?_, ?_, ?_⟩, ⟨?_, fun i hi => by
      obtain ⟨i1, i2⟩ := apart hi
      simp [divPart, rd, wr, new, bind, StateT.bind, pure, StateT.pure, Nat.add_assoc, *]⟩, ?_⟩
    case refine_7 =>
      simp [divPart, rd, wr, new, bind, StateT.bind, pure, StateT.pure, FHeap.val, Nat.add_assoc, *]
      left; ring
    all_goals simp [divPart, rd, wr, new, bind, StateT.bind, pure, StateT.pure, Nat.add_assoc, *]

theorem Keeps.trans {a b c : FHeap K} (h1 : Keeps a b) (h2 : Keeps b c) : Keeps a c :=
  ⟨Nat.le_trans h1.le h2.le, fun i hi => (h2.same i (Nat.lt_of_lt_of_le hi h1.le)).trans (h1.same i hi)⟩

/-- `⌈c` with big numbers -/
theorem C98_big_ceil (f64 : K → K) (c : BC) (h : FHeap K) (hc : h.Has c) (h1 : f64 (-h.get c.re) = -h.get c.re) (h2 : f64 (-h.get c.im) = -h.get c.im) :
    Gives (bceil f64 c) h (ceil (h.val c)) := by
  have g1 := C98_neg c h hc
  have v1 : (neg c h).2.get (neg c h).1.re = -h.get c.re := congrArg Cx.re g1.value
  have v2 : (neg c h).2.get (neg c h).1.im = -h.get c.im := congrArg Cx.im g1.value
  have g2 := C98_big_floor f64 (neg c h).1 (neg c h).2 g1.has (by rw [v1, h1]) (by rw [v2, h2])
  have g3 := C98_neg (bfloor f64 (neg c h).1 (neg c h).2).1 _ g2.has
  refine ⟨g3.value.trans ?_, ?_, ?_, g3.has, g1.keeps.trans (g2.keeps.trans g3.keeps)⟩
  · have v := g2.value
    rw [show (neg c h).2.val (neg c h).1 = ⟨-h.get c.re, -h.get c.im⟩ from g1.value] at v
    have w1 := congrArg Cx.re v
    have w2 := congrArg Cx.im v
    simp only [FHeap.val] at w1 w2
    rw [w1, w2]
    rfl
  · exact Nat.le_trans g1.keeps.le (Nat.le_trans g2.keeps.le g3.re)
  · exact Nat.le_trans g1.keeps.le (Nat.le_trans g2.keeps.le g3.im)

variable [IsStrictOrderedRing K]

theorem absNew_run (x : Nat) (h : FHeap K) (hx : x < h.next) : ∃ h' : FHeap K, absNew x h = (h.next, h') ∧ h'.next = h.next + 1 ∧ h'.get h.next = |h.get x| ∧ Keeps h h' := by
  obtain ⟨a1, a2⟩ := apart hx
  refine ⟨(absNew x h).2, ?_⟩
  by_cases p : h.get x < 0
  · refine ⟨?_, ?_, ?_, ⟨?_, fun i hi => by
      obtain ⟨i1, i2⟩ := apart hi
      simp [absNew, rd, wr, new, bind, StateT.bind, pure, StateT.pure, Nat.add_assoc, *]⟩⟩
    all_goals simp [absNew, rd, wr, new, bind, StateT.bind, pure, StateT.pure, Nat.add_assoc, abs_of_neg, *]
  · refine ⟨?_, ?_, ?_, ⟨?_, fun i hi => by
      obtain ⟨i1, i2⟩ := apart hi
      simp [absNew, rd, wr, new, bind, StateT.bind, pure, StateT.pure, Nat.add_assoc, *]⟩⟩
    all_goals simp [absNew, rd, wr, new, bind, StateT.bind, pure, StateT.pure, Nat.add_assoc, abs_of_nonneg (not_lt.mp p), *]

/-- the core of `div2` after the two special cases -/
theorem divMain_run (a b c d : Nat) (h : FHeap K) (ha : a < h.next) (hb : b < h.next) (hc : c < h.next) (hd : d < h.next) (p : h.get c ≠ 0 ∨ h.get d ≠ 0) :
    Gives (divMain a b c d) h
      ⟨(h.get a * h.get c + h.get b * h.get d) / (h.get c * h.get c + h.get d * h.get d),
       (h.get b * h.get c - h.get a * h.get d) / (h.get c * h.get c + h.get d * h.get d)⟩ := by
  obtain ⟨h1, e1, n1, v1, k1⟩ := absNew_run d h hd
  obtain ⟨h2, e2, n2, v2, k2⟩ := absNew_run c h1 (Nat.lt_of_lt_of_le hc k1.le)
  have k := k1.trans k2
  have v1' : h2.get h.next = |h.get d| := (k2.same _ (by omega)).trans v1
  have v2' : h2.get h1.next = |h.get c| := v2.trans (by rw [k1.same c hc])
  by_cases q : |h.get d| ≤ |h.get c|
  · obtain ⟨h3, z, e3, z1, z2, has, k3, v3⟩ := divPart_run a b c d h2 (Nat.lt_of_lt_of_le ha k.le) (Nat.lt_of_lt_of_le hb k.le) (Nat.lt_of_lt_of_le hc k.le) (Nat.lt_of_lt_of_le hd k.le)
    have run : divMain a b c d h = (z, h3) := by
      simp [divMain, rd, bind, StateT.bind, pure, StateT.pure, e1, e2, v1', v2', q, e3]
    have c0 : h.get c ≠ 0 := by
      intro e
      rw [e, abs_zero] at q
      have : h.get d = 0 := abs_eq_zero.mp (le_antisymm q (abs_nonneg _))
      rcases p with p | p
      · exact p e
      · exact p this
    rw [Gives, run]
    refine ⟨v3.trans ?_, ?_, ?_, has, k.trans k3⟩
    · rw [k.same a ha, k.same b hb, k.same c hc, k.same d hd]
      have s0 : h.get d * (h.get d / h.get c) + h.get c ≠ 0 := by
        have : 0 < h.get d * h.get d + h.get c * h.get c := by
          have := mul_self_pos.mpr c0
          have := mul_self_nonneg (h.get d)
          linarith
        intro e
        have e' : (h.get d * (h.get d / h.get c) + h.get c) * h.get c = h.get d * h.get d + h.get c * h.get c := by field_simp
        rw [e, zero_mul] at e'
        linarith
      have s1 : h.get c * h.get c + h.get d * h.get d ≠ 0 := by
        have := mul_self_pos.mpr c0
        have := mul_self_nonneg (h.get d)
        linarith
      congr 1
      · field_simp
        ring
      · field_simp
        ring
    · exact Nat.le_trans k.le z1
    · exact Nat.le_trans k.le z2
  · obtain ⟨h3, z, e3, z1, z2, has, k3, v3⟩ := divPart_run b a d c h2 (Nat.lt_of_lt_of_le hb k.le) (Nat.lt_of_lt_of_le ha k.le) (Nat.lt_of_lt_of_le hd k.le) (Nat.lt_of_lt_of_le hc k.le)
    have run : divMain a b c d h = (z, (wr z.im (-h3.get z.im) h3).2) := by
      simp [divMain, rd, bind, StateT.bind, pure, StateT.pure, e1, e2, v1', v2', q, e3]
      rfl
    have d0 : h.get d ≠ 0 := by
      intro e
      rw [e, abs_zero] at q
      exact q (abs_nonneg _)
    rw [Gives, run]
    have w : (wr z.im (-h3.get z.im) h3).2.val z = ⟨(h3.val z).re, -(h3.val z).im⟩ := by
      simp [wr, FHeap.val, has.2.2]
    refine ⟨w.trans ?_, ?_, ?_, has, k.trans ⟨k3.le, fun i hi => ?_⟩⟩
    · rw [v3, k.same a ha, k.same b hb, k.same c hc, k.same d hd]
      have s0 : h.get c * (h.get c / h.get d) + h.get d ≠ 0 := by
        have : 0 < h.get c * h.get c + h.get d * h.get d := by
          have := mul_self_pos.mpr d0
          have := mul_self_nonneg (h.get c)
          linarith
        intro e
        have e' : (h.get c * (h.get c / h.get d) + h.get d) * h.get d = h.get c * h.get c + h.get d * h.get d := by field_simp
        rw [e, zero_mul] at e'
        linarith
      have s1 : h.get c * h.get c + h.get d * h.get d ≠ 0 := by
        have := mul_self_pos.mpr d0
        have := mul_self_nonneg (h.get c)
        linarith
      congr 1
      · field_simp
        ring
      · field_simp
        ring
    · exact Nat.le_trans k.le z1
    · exact Nat.le_trans k.le z2
    · have hz : i ≠ z.im := by omega
      simp [wr, hz, k3.same i hi]

theorem div2_run (l r : BC) (h : FHeap K) (hl : h.Has l) (hr : h.Has r) (p : h.val r ≠ ⟨0, 0⟩) :
    ∃ z h', div2 l r h = (some z, h') ∧ Result h z h'
      ⟨(h.get l.re * h.get r.re + h.get l.im * h.get r.im) / (h.get r.re * h.get r.re + h.get r.im * h.get r.im),
       (h.get l.im * h.get r.re - h.get l.re * h.get r.im) / (h.get r.re * h.get r.re + h.get r.im * h.get r.im)⟩ := by
  have p' : ¬ (h.get r.re = 0 ∧ h.get r.im = 0) := by
    rintro ⟨x, y⟩
    exact p (by simp [FHeap.val, x, y])
  obtain ⟨a1, a2⟩ := apart hl.1
  obtain ⟨b1, b2⟩ := apart hl.2.1
  by_cases q : h.get l.re = 0 ∧ h.get l.im = 0
  · obtain ⟨q1, q2⟩ := q
    refine ⟨⟨h.next, h.next + 1⟩, (cpy l h).2, ?_, ?_, ?_, ?_, ⟨?_, ?_, ?_⟩, ⟨?_, fun i hi => ?_⟩⟩
    case refine_9 => 
      obtain ⟨i1, i2⟩ := apart hi
      simp [cpy, rd, wr, new, bind, StateT.bind, pure, StateT.pure, Nat.add_assoc, *]
    all_goals simp [div2, cpy, rd, wr, new, bind, StateT.bind, pure, StateT.pure, Nat.add_assoc, FHeap.val, p', *]
  · obtain ⟨c1, c2⟩ := apart hr.1
    obtain ⟨d1, d2⟩ := apart hr.2.1
    let H : FHeap K := ⟨fun i => if i = h.next + 3 then h.get r.im else if i = h.next + 2 then h.get r.re else if i = h.next + 1 then h.get l.im else
      if i = h.next then h.get l.re else h.get i, h.next + 4⟩
    have kH : Keeps h H := ⟨by simp [H], fun i hi => by
      obtain ⟨i1, i2⟩ := apart hi
      simp [H, i1, i2]⟩
    have run : div2 l r h = (some (divMain h.next (h.next + 1) (h.next + 2) (h.next + 3) H).1, (divMain h.next (h.next + 1) (h.next + 2) (h.next + 3) H).2) := by
      simp [div2, cpy, rd, wr, new, bind, StateT.bind, pure, StateT.pure, Nat.add_assoc, p', q, H, a1, a2, b1, b2, c1, c2, d1, d2]
      rfl
    have g := divMain_run h.next (h.next + 1) (h.next + 2) (h.next + 3) H (by simp [H]) (by simp [H]) (by simp [H]) (by simp [H]) (by simp [H]; by_contra hh; push Not at hh; exact p' hh)
    refine ⟨_, _, run, g.value.trans ?_, Nat.le_trans kH.le g.re, Nat.le_trans kH.le g.im, g.has, kH.trans g.keeps⟩
    simp [H]
theorem positive_run (x : Nat) (h : FHeap K) : positive x h = ((), ⟨fun i => if i = x then |h.get x| else h.get i, h.next⟩) := by
  by_cases p : h.get x < 0
  · simp [positive, rd, wr, bind, StateT.bind, pure, StateT.pure, p, abs_of_neg]
  · simp [positive, rd, bind, StateT.bind, pure, StateT.pure, p, abs_of_nonneg (not_lt.mp p)]
    have : (fun i => if i = x then h.get x else h.get i) = h.get := by
      funext i
      by_cases hi : i = x <;> simp [hi]
    rw [this]

theorem hypot_run (sqrt : K → K) (x y : Nat) (h : FHeap K) (hx : x < h.next) (hy : y < h.next) (hne : x ≠ y) (h0 : h.get x ≠ 0) :
    ∃ h', hypot sqrt x y h = (x, h') ∧ h.next ≤ h'.next ∧ (∀ i, i < h.next → i ≠ x → i ≠ y → h'.get i = h.get i) ∧
      h'.get y = sqrt (h.get y / h.get x * (h.get y / h.get x) + 1) ∧ h'.get x = h.get x * sqrt (h.get y / h.get x * (h.get y / h.get x) + 1) := by
  obtain ⟨a1, a2⟩ := apart hx
  obtain ⟨b1, b2⟩ := apart hy
  have hne' := hne.symm
  refine ⟨(hypot sqrt x y h).2, ?_, ?_, fun i hi i3 i4 => ?_, ?_, ?_⟩
  case refine_3 =>
    obtain ⟨i1, i2⟩ := apart hi
    simp [hypot, rd, wr, new, bind, StateT.bind, pure, StateT.pure, Nat.add_assoc, *]
  all_goals simp [hypot, rd, wr, new, bind, StateT.bind, pure, StateT.pure, Nat.add_assoc, *]

theorem absIn_run (sqrt : K → K) (c : BC) (h : FHeap K) (hc : h.Has c) :
    ∃ (h' : FHeap K), h.next ≤ h'.next ∧ (∀ i, i < h.next → i ≠ c.re → i ≠ c.im → h'.get i = h.get i) ∧
      ((h.val c = ⟨0, 0⟩ ∧ absIn sqrt c h = (c.im, h') ∧ h'.val c = ⟨0, 0⟩) ∨
       (h.get c.re ≠ 0 ∧ |h.get c.im| ≤ |h.get c.re| ∧ absIn sqrt c h = (c.re, h') ∧
          h'.val c = ⟨|h.get c.re| * sqrt (|h.get c.im| / |h.get c.re| * (|h.get c.im| / |h.get c.re|) + 1), sqrt (|h.get c.im| / |h.get c.re| * (|h.get c.im| / |h.get c.re|) + 1)⟩) ∨
       (h.get c.im ≠ 0 ∧ |h.get c.re| < |h.get c.im| ∧ absIn sqrt c h = (c.im, h') ∧
          h'.val c = ⟨sqrt (|h.get c.re| / |h.get c.im| * (|h.get c.re| / |h.get c.im|) + 1), |h.get c.im| * sqrt (|h.get c.re| / |h.get c.im| * (|h.get c.re| / |h.get c.im|) + 1)⟩)) := by
  have d1 := hc.2.2
  have d2 := hc.2.2.symm
  let H : FHeap K := ⟨fun i => if i = c.im then |h.get c.im| else if i = c.re then |h.get c.re| else h.get i, h.next⟩
  have hr : H.get c.re = |h.get c.re| := by simp [H, d1]
  have hi' : H.get c.im = |h.get c.im| := by simp [H]
  have run : absIn sqrt c h = (if |h.get c.re| < |h.get c.im| then hypot sqrt c.im c.re H else hypot sqrt c.re c.im H) := by
    simp [absIn, bind, StateT.bind, positive_run, rd, H, d1, d2]
    by_cases p : |h.get c.re| < |h.get c.im| <;> simp [p]
  have oth : ∀ i, i ≠ c.re → i ≠ c.im → H.get i = h.get i := by
    intro i i1 i2
    simp [H, i1, i2]
  by_cases w : |h.get c.re| < |h.get c.im|
  · rw [if_pos w] at run
    have z : h.get c.im ≠ 0 := by
      intro e
      rw [e, abs_zero] at w
      exact absurd w (not_lt.mpr (abs_nonneg _))
    obtain ⟨h', e, n, o, v1, v2⟩ := hypot_run sqrt c.im c.re H hc.2.1 hc.1 d2 (by rw [hi']; exact abs_ne_zero.mpr z)
    refine ⟨h', n, fun i i0 i1 i2 => (o i i0 i2 i1).trans (oth i i1 i2), .inr (.inr ⟨z, w, run.trans e, ?_⟩)⟩
    rw [FHeap.val, v1, v2, hr, hi']
  · rw [if_neg w] at run
    by_cases z : h.get c.re = 0
    · have z' : h.get c.im = 0 := by
        rw [z, abs_zero] at w
        exact abs_eq_zero.mp (le_antisymm (not_lt.mp w) (abs_nonneg _))
      refine ⟨H, Nat.le_refl _, fun i _ => oth i, .inl ⟨by simp [FHeap.val, z, z'], ?_, ?_⟩⟩
      · rw [run]
        simp [hypot, rd, bind, StateT.bind, pure, StateT.pure, hr, z]
      · rw [FHeap.val, hr, hi', z, z', abs_zero]
    · obtain ⟨h', e, n, o, v1, v2⟩ := hypot_run sqrt c.re c.im H hc.1 hc.2.1 d1 (by rw [hr]; exact abs_ne_zero.mpr z)
      refine ⟨h', n, fun i i0 i1 i2 => (o i i0 i1 i2).trans (oth i i1 i2), .inr (.inl ⟨z, not_lt.mp w, run.trans e, ?_⟩)⟩
      rw [FHeap.val, v1, v2, hr, hi']

/-- the square root of the tower: exact -/
def IsSqrt (sqrt : K → K) : Prop := ∀ x, 0 ≤ x → 0 ≤ sqrt x ∧ sqrt x * sqrt x = x

theorem hyp_sq (sqrt : K → K) (hs : IsSqrt sqrt) (a b : K) (ha : a ≠ 0) :
    0 ≤ |a| * sqrt (|b| / |a| * (|b| / |a|) + 1) ∧ (|a| * sqrt (|b| / |a| * (|b| / |a|) + 1)) * (|a| * sqrt (|b| / |a| * (|b| / |a|) + 1)) = a * a + b * b := by
  have h1 : 0 ≤ |b| / |a| * (|b| / |a|) + 1 := by
    have := mul_self_nonneg (|b| / |a|)
    linarith
  obtain ⟨s1, s2⟩ := hs _ h1
  refine ⟨mul_nonneg (abs_nonneg _) s1, ?_⟩
  have ha' : |a| ≠ 0 := abs_ne_zero.mpr ha
  calc _ = (|a| * |a|) * (sqrt (|b| / |a| * (|b| / |a|) + 1) * sqrt (|b| / |a| * (|b| / |a|) + 1)) := by ring
    _ = (|a| * |a|) * (|b| / |a| * (|b| / |a|) + 1) := by rw [s2]
    _ = |b| * |b| + |a| * |a| := by field_simp
    _ = a * a + b * b := by rw [abs_mul_abs_self, abs_mul_abs_self]; ring

theorem sqrt_one_le (sqrt : K → K) (hs : IsSqrt sqrt) (t : K) : 1 ≤ sqrt (t * t + 1) := by
  have := mul_self_nonneg t
  obtain ⟨s1, s2⟩ := hs (t * t + 1) (by linarith)
  by_contra hh
  push Not at hh
  have : sqrt (t * t + 1) * sqrt (t * t + 1) < 1 := by nlinarith
  linarith

/-- the magnitude in place -/
theorem absIn_value (sqrt : K → K) (hs : IsSqrt sqrt) (c : BC) (h : FHeap K) (hc : h.Has c) :
    ∃ h' r, absIn sqrt c h = (r, h') ∧ (r = c.re ∨ r = c.im) ∧ h.next ≤ h'.next ∧ (∀ i, i < h.next → i ≠ c.re → i ≠ c.im → h'.get i = h.get i) ∧
      0 ≤ h'.get r ∧ h'.get r * h'.get r = h.get c.re * h.get c.re + h.get c.im * h.get c.im ∧ (h.val c ≠ ⟨0, 0⟩ → h'.val c ≠ h.val c) := by
  obtain ⟨h', n, o, h1 | h1 | h1⟩ := absIn_run sqrt c h hc
  · obtain ⟨z, e, v⟩ := h1
    have z1 := congrArg Cx.re z
    have z2 := congrArg Cx.im z
    have v2 := congrArg Cx.im v
    simp only [FHeap.val] at z1 z2 v2
    refine ⟨h', c.im, e, .inr rfl, n, o, ?_, ?_, fun hh => absurd z hh⟩
    · rw [v2]
    · rw [v2, z1, z2]; ring
  · obtain ⟨z, w, e, v⟩ := h1
    have v1 := congrArg Cx.re v
    have v2 := congrArg Cx.im v
    simp only [FHeap.val] at v1 v2
    obtain ⟨s1, s2⟩ := hyp_sq sqrt hs _ (h.get c.im) z
    refine ⟨h', c.re, e, .inl rfl, n, o, ?_, ?_, fun _ hh => ?_⟩
    · rw [v1]; exact s1
    · rw [v1]; exact s2
    · have u1 := congrArg Cx.re hh
      have u2 := congrArg Cx.im hh
      simp only [FHeap.val] at u1 u2
      have one := sqrt_one_le sqrt hs (|h.get c.im| / |h.get c.re|)
      rw [← v2, u2] at one
      rw [← v1, u1] at s2
      have : 0 < h.get c.im * h.get c.im := by nlinarith
      linarith
  · obtain ⟨z, w, e, v⟩ := h1
    have v1 := congrArg Cx.re v
    have v2 := congrArg Cx.im v
    simp only [FHeap.val] at v1 v2
    obtain ⟨s1, s2⟩ := hyp_sq sqrt hs _ (h.get c.re) z
    refine ⟨h', c.im, e, .inr rfl, n, o, ?_, ?_, fun _ hh => ?_⟩
    · rw [v2]; exact s1
    · rw [v2]; rw [s2]; ring
    · have u1 := congrArg Cx.re hh
      have u2 := congrArg Cx.im hh
      simp only [FHeap.val] at u1 u2
      have one := sqrt_one_le sqrt hs (|h.get c.re| / |h.get c.im|)
      rw [← v1, u1] at one
      rw [← v2, u2] at s2
      have : 0 < h.get c.re * h.get c.re := by nlinarith
      linarith

theorem cpy_gives (c : BC) (h : FHeap K) (hc : h.Has c) : Gives (cpy c) h (h.val c) := by
  obtain ⟨a1, a2⟩ := apart hc.1
  obtain ⟨b1, b2⟩ := apart hc.2.1
  refine ⟨?_, ?_, ?_, ⟨?_, ?_, ?_⟩, ⟨?_, fun i hi => by obtain ⟨i1, i2⟩ := apart hi; simp [cpy, rd, wr, new, bind, StateT.bind, pure, StateT.pure, FHeap.val, Nat.add_assoc, *]⟩⟩
  all_goals simp [cpy, rd, wr, new, bind, StateT.bind, pure, StateT.pure, FHeap.val, Nat.add_assoc, a1, a2, b1, b2]

/-- `|c|`: not negative, and its square is the sum of the squares of the parts; the argument stays -/
theorem C98_magnitude (sqrt : K → K) (hs : IsSqrt sqrt) (c : BC) (h : FHeap K) (hc : h.Has c) :
    ∃ r h', abs sqrt c h = (r, h') ∧ h.next ≤ r ∧ Keeps h h' ∧ 0 ≤ h'.get r ∧ h'.get r * h'.get r = h.get c.re * h.get c.re + h.get c.im * h.get c.im := by
  have g := cpy_gives c h hc
  obtain ⟨h', r, e, w, n, o, v1, v2, -⟩ := absIn_value sqrt hs (cpy c h).1 (cpy c h).2 g.has
  have c1 := congrArg Cx.re g.value
  have c2 := congrArg Cx.im g.value
  simp only [FHeap.val] at c1 c2
  refine ⟨r, h', ?_, ?_, ⟨Nat.le_trans g.keeps.le n, fun i hi => ?_⟩, v1, by rw [v2, c1, c2]⟩
  · simp only [abs, bind, StateT.bind]
    exact e
  · rcases w with w | w
    · rw [w]; exact g.re
    · rw [w]; exact g.im
  · have := g.re
    have := g.im
    rw [o i (Nat.lt_of_lt_of_le hi g.keeps.le) (by omega) (by omega), g.keeps.same i hi]

/-- `×c` with big numbers: the number of magnitude one in the direction of `c`; but every `c` other than zero is a different number afterwards -/
theorem C98_direction (sqrt : K → K) (hs : IsSqrt sqrt) (c : BC) (h : FHeap K) (hc : h.Has c) :
    ∃ z h', dir sqrt c h = (z, h') ∧ h.next ≤ z.re ∧ h.next ≤ z.im ∧ h'.Has z ∧
      (∀ i, i < h.next → i ≠ c.re → i ≠ c.im → h'.get i = h.get i) ∧
      (∃ m : K, 0 ≤ m ∧ m * m = h.get c.re * h.get c.re + h.get c.im * h.get c.im ∧ m * h'.get z.re = h.get c.re ∧ m * h'.get z.im = h.get c.im) ∧
      (h.val c = ⟨0, 0⟩ → h'.val z = ⟨0, 0⟩) ∧
      (h.val c ≠ ⟨0, 0⟩ → h'.get z.re * h'.get z.re + h'.get z.im * h'.get z.im = 1 ∧ h'.val c ≠ h.val c) := by
  have g : Result h (cpy c h).1 (cpy c h).2 (h.val c) := cpy_gives c h hc
  have hc' : (cpy c h).2.Has c := ⟨Nat.lt_of_lt_of_le hc.1 g.keeps.le, Nat.lt_of_lt_of_le hc.2.1 g.keeps.le, hc.2.2⟩
  obtain ⟨h', r, e, w, n, o, v1, v2, ch⟩ := absIn_value sqrt hs c (cpy c h).2 hc'
  have c1 := congrArg Cx.re g.value
  have c2 := congrArg Cx.im g.value
  simp only [FHeap.val] at c1 c2
  rw [g.keeps.same _ hc.1, g.keeps.same _ hc.2.1] at v2
  have hv : (cpy c h).2.val c = h.val c := by rw [FHeap.val, g.keeps.same _ hc.1, g.keeps.same _ hc.2.1]; rfl
  rw [hv] at ch
  have zn := g.has.2.2
  generalize hz : (cpy c h).1 = z at *
  generalize hh1 : (cpy c h).2 = h1 at *
  have cp : cpy c h = (z, h1) := Prod.ext hz hh1
  have n1 := g.re
  have n2 := g.im
  have zr : h'.get z.re = h.get c.re := (o _ g.has.1 (by have := hc.1; omega) (by have := hc.2.1; omega)).trans c1
  have zi : h'.get z.im = h.get c.im := (o _ g.has.2.1 (by have := hc.1; omega) (by have := hc.2.1; omega)).trans c2
  have r1 : r ≠ z.re := by have := hc.1; have := hc.2.1; rcases w with w | w <;> omega
  have r2 : r ≠ z.im := by have := hc.1; have := hc.2.1; rcases w with w | w <;> omega
  have k1 : c.re ≠ z.re ∧ c.re ≠ z.im ∧ c.im ≠ z.re ∧ c.im ≠ z.im := by have := hc.1; have := hc.2.1; omega
  have hz' := zn.symm
  by_cases m0 : h'.get r = 0
  · rw [m0] at v2
    have e1 : h.get c.re = 0 := by nlinarith [mul_self_nonneg (h.get c.re), mul_self_nonneg (h.get c.im)]
    have e2 : h.get c.im = 0 := by nlinarith [mul_self_nonneg (h.get c.re), mul_self_nonneg (h.get c.im)]
    refine ⟨z, (dir sqrt c h).2, ?_, n1, n2, ⟨?_, ?_, zn⟩, fun i i0 i1 i2 => ?_, ⟨0, le_refl _, ?_, ?_, ?_⟩, fun _ => ?_, fun hh => absurd (by rw [FHeap.val, e1, e2]) hh⟩
    case refine_4 =>
      have i3 : i ≠ z.re := by omega
      have i4 : i ≠ z.im := by omega
      simp [dir, bind, StateT.bind, cp, e, rd, m0, wr, pure, StateT.pure, i3, i4, o i (Nat.lt_of_lt_of_le i0 g.keeps.le) i1 i2, g.keeps.same i i0]
    case refine_2 => 
      have := g.has.1
      simp [dir, bind, StateT.bind, cp, e, rd, m0, wr, pure, StateT.pure]
      omega
    case refine_3 => 
      have := g.has.2.1
      simp [dir, bind, StateT.bind, cp, e, rd, m0, wr, pure, StateT.pure]
      omega
    all_goals simp [dir, bind, StateT.bind, cp, e, rd, m0, wr, pure, StateT.pure, e1, e2, FHeap.val, zn, hz']
  · have hnz : h.val c ≠ ⟨0, 0⟩ := by
      intro hh
      have e1 := congrArg Cx.re hh
      have e2 := congrArg Cx.im hh
      simp only [FHeap.val] at e1 e2
      rw [e1, e2] at v2
      exact m0 (mul_self_eq_zero.mp (v2.trans (by ring)))
    refine ⟨z, (dir sqrt c h).2, ?_, n1, n2, ⟨?_, ?_, zn⟩, fun i i0 i1 i2 => ?_, ⟨h'.get r, v1, v2, ?_, ?_⟩, fun hh => absurd hh hnz, fun _ => ⟨?_, fun hh => ?_⟩⟩
    case refine_4 =>
      have i3 : i ≠ z.re := by omega
      have i4 : i ≠ z.im := by omega
      simp [dir, bind, StateT.bind, cp, e, rd, m0, wr, pure, StateT.pure, i3, i4, o i (Nat.lt_of_lt_of_le i0 g.keeps.le) i1 i2, g.keeps.same i i0]
    case refine_2 => 
      have := g.has.1
      simp [dir, bind, StateT.bind, cp, e, rd, m0, wr, pure, StateT.pure]
      omega
    case refine_3 => 
      have := g.has.2.1
      simp [dir, bind, StateT.bind, cp, e, rd, m0, wr, pure, StateT.pure]
      omega
    case refine_7 =>
      simp [dir, bind, StateT.bind, cp, e, rd, m0, wr, pure, StateT.pure, zn, hz', zr, zi, r1, r2]
      field_simp
      rw [pow_two, pow_two, pow_two, v2]
    case refine_8 =>
      apply ch hnz
      simpa [dir, bind, StateT.bind, cp, e, rd, m0, wr, pure, StateT.pure, FHeap.val, k1, r1, r2] using hh
    all_goals simp [dir, bind, StateT.bind, cp, e, rd, m0, wr, pure, StateT.pure, FHeap.val, zn, hz', zr, zi, r1, r2]
    all_goals field_simp

/-- `a÷b`: infinity exactly for a zero divisor, otherwise the number `v` with v·b = a (the arguments may be the same number in memory) -/
theorem C98_divide (l r : BC) (h : FHeap K) (hl : h.Has l) (hr : h.Has r) :
    (h.val r = ⟨0, 0⟩ → div2 l r h = (none, h)) ∧
    (h.val r ≠ ⟨0, 0⟩ → ∃ z h' v, div2 l r h = (some z, h') ∧ Result h z h' v ∧ v * h.val r = h.val l) := by
  constructor
  · intro e
    have e1 := congrArg Cx.re e
    have e2 := congrArg Cx.im e
    simp only [FHeap.val] at e1 e2
    simp [div2, rd, bind, StateT.bind, pure, StateT.pure, e1, e2]
  · intro p
    obtain ⟨z, h', e, g⟩ := div2_run l r h hl hr p
    refine ⟨z, h', _, e, g, ?_⟩
    have s1 : h.get r.re * h.get r.re + h.get r.im * h.get r.im ≠ 0 := by
      intro e0
      have h1 := mul_self_nonneg (h.get r.re)
      have h2 := mul_self_nonneg (h.get r.im)
      have z1 : h.get r.re = 0 := mul_self_eq_zero.mp (by linarith)
      have z2 : h.get r.im = 0 := mul_self_eq_zero.mp (by linarith)
      exact p (by rw [FHeap.val, z1, z2])
    simp only [FHeap.val, cx_mul]
    congr 1
    · rw [div_mul_eq_mul_div, div_mul_eq_mul_div, ← sub_div, div_eq_iff s1]
      ring
    · rw [div_mul_eq_mul_div, div_mul_eq_mul_div, ← add_div, div_eq_iff s1]
      ring

/-- `÷c` -/
theorem C98_reciprocal (c : BC) (h : FHeap K) (hc : h.Has c) :
    (h.val c = ⟨0, 0⟩ → ∃ h', inv c h = (none, h') ∧ Keeps h h') ∧
    (h.val c ≠ ⟨0, 0⟩ → ∃ z h' v, inv c h = (some z, h') ∧ Result h z h' v ∧ v * h.val c = ⟨1, 0⟩) := by
  obtain ⟨a1, a2⟩ := apart hc.1
  obtain ⟨b1, b2⟩ := apart hc.2.1
  let H : FHeap K := ⟨fun i => if i = h.next + 1 then 0 else if i = h.next then 1 else h.get i, h.next + 2⟩
  have kH : Keeps h H := ⟨by simp [H], fun i hi => by
    obtain ⟨i1, i2⟩ := apart hi
    simp [H, i1, i2]⟩
  have run : inv c h = div2 ⟨h.next, h.next + 1⟩ c H := by
    simp only [inv, cpy, rd, wr, new, bind, StateT.bind, pure, StateT.pure]
    congr 1
    have : (fun i => if i = h.next + 1 then (0 : K) else if i = h.next then 1 else if i = h.next + 1 then (if c.im = h.next then h.get c.re else h.get c.im) else if i = h.next then h.get c.re else h.get i) =
        fun i => if i = h.next + 1 then (0 : K) else if i = h.next then 1 else h.get i := by
      funext i
      by_cases h1 : i = h.next + 1
      · simp [h1]
      · by_cases h2 : i = h.next
        · simp [h2]
        · simp [h1, h2]
    exact congrArg (fun g => (⟨g, h.next + 2⟩ : FHeap K)) this
  have hv : H.val c = h.val c := by simp [FHeap.val, H, a1, a2, b1, b2]
  have hc' : H.Has c := ⟨Nat.lt_of_lt_of_le hc.1 kH.le, Nat.lt_of_lt_of_le hc.2.1 kH.le, hc.2.2⟩
  obtain ⟨d1, d2⟩ := C98_divide ⟨h.next, h.next + 1⟩ c H ⟨by simp [H], by simp [H], by simp⟩ hc'
  rw [hv] at d1 d2
  refine ⟨fun e => ⟨H, run.trans (d1 e), kH⟩, fun p => ?_⟩
  obtain ⟨z, h', v, e, g, q⟩ := d2 p
  refine ⟨z, h', v, run.trans e, ⟨g.value, Nat.le_trans kH.le g.re, Nat.le_trans kH.le g.im, g.has, kH.trans g.keeps⟩, q.trans ?_⟩
  simp [FHeap.val, H]

/-- `m+ni` is the corner of the diamond that contains `c`: the diamonds `0 ≤ u+v < 1`, `-1 ≤ u-v < 1` around the Gaussian integers tile the plane -/
def IsFloor (c : Cx K) (m n : Int) : Prop :=
  0 ≤ (c.re - m) + (c.im - n) ∧ (c.re - m) + (c.im - n) < 1 ∧ -1 ≤ (c.re - m) - (c.im - n) ∧ (c.re - m) - (c.im - n) < 1

theorem isFloor_unique (c : Cx K) (m n m' n' : Int) (h : IsFloor c m n) (h' : IsFloor c m' n') : m = m' ∧ n = n' := by
  obtain ⟨a1, a2, a3, a4⟩ := h
  obtain ⟨b1, b2, b3, b4⟩ := h'
  have x1 : ((m + n : Int) : K) < ((m' + n' + 1 : Int) : K) := by push_cast; linarith
  have x2 : ((m' + n' : Int) : K) < ((m + n + 1 : Int) : K) := by push_cast; linarith
  have x3 : ((m - n : Int) : K) < ((m' - n' + 2 : Int) : K) := by push_cast; linarith
  have x4 : ((m' - n' : Int) : K) < ((m - n + 2 : Int) : K) := by push_cast; linarith
  rw [Int.cast_lt] at x1 x2 x3 x4
  omega

/-- the complex floor: the only Gaussian integer whose diamond contains `c` -/
theorem C98_floor (c : Cx K) (m n : Int) : floor c = ⟨m, n⟩ ↔ IsFloor c m n := by
  have ex : ∃ m n : Int, floor c = ⟨m, n⟩ ∧ IsFloor c m n := by
    have f1 := Int.floor_le c.re
    have f2 := Int.lt_floor_add_one c.re
    have f3 := Int.floor_le c.im
    have f4 := Int.lt_floor_add_one c.im
    by_cases p : 1 > (c.re - ⌊c.re⌋) + (c.im - ⌊c.im⌋)
    · refine ⟨⌊c.re⌋, ⌊c.im⌋, if_pos p, ?_, ?_, ?_, ?_⟩ <;> linarith
    · by_cases q : c.re - ⌊c.re⌋ ≥ c.im - ⌊c.im⌋
      · refine ⟨1 + ⌊c.re⌋, ⌊c.im⌋, (if_neg p).trans ((if_pos q).trans ?_), ?_, ?_, ?_, ?_⟩
        · simp
        all_goals (push_cast; linarith)
      · refine ⟨⌊c.re⌋, 1 + ⌊c.im⌋, (if_neg p).trans ((if_neg q).trans ?_), ?_, ?_, ?_, ?_⟩
        · simp
        all_goals (push_cast; linarith)
  obtain ⟨m0, n0, e, i⟩ := ex
  constructor
  · intro h
    rw [e] at h
    have h1 := congrArg Cx.re h
    have h2 := congrArg Cx.im h
    simp only [Int.cast_inj] at h1 h2
    rw [← h1, ← h2]
    exact i
  · intro h
    obtain ⟨h1, h2⟩ := isFloor_unique c _ _ _ _ i h
    rw [e, h1, h2]

/-- the floor of every complex number is a Gaussian integer at a distance below one -/
theorem C98_floor_near (c : Cx K) : ∃ m n : Int, floor c = ⟨m, n⟩ ∧ (c.re - m) * (c.re - m) + (c.im - n) * (c.im - n) < 1 := by
  have ex : ∃ m n : Int, floor c = ⟨m, n⟩ := by
    simp only [floor]
    split
    · exact ⟨_, _, rfl⟩
    · split
      · exact ⟨1 + ⌊c.re⌋, ⌊c.im⌋, by simp⟩
      · exact ⟨⌊c.re⌋, 1 + ⌊c.im⌋, by simp⟩
  obtain ⟨m, n, e⟩ := ex
  refine ⟨m, n, e, ?_⟩
  obtain ⟨a1, a2, a3, a4⟩ := (C98_floor c m n).mp e
  nlinarith

/-- the floor moves with a Gaussian integer -/
theorem C98_floor_shift (c : Cx K) (m n : Int) : floor (⟨c.re + m, c.im + n⟩ : Cx K) = ⟨(floor c).re + m, (floor c).im + n⟩ := by
  obtain ⟨x, y, e, -⟩ := C98_floor_near c
  have i := (C98_floor c x y).mp e
  rw [e]
  have := (C98_floor (⟨c.re + m, c.im + n⟩ : Cx K) (x + m) (y + n)).mpr (by
    obtain ⟨a1, a2, a3, a4⟩ := i
    refine ⟨?_, ?_, ?_, ?_⟩ <;> push_cast <;> linarith)
  rw [this]
  push_cast
  rfl

/-- on the real axis it is the ordinary floor -/
theorem C98_floor_real (x : K) : floor (⟨x, 0⟩ : Cx K) = ⟨⌊x⌋, 0⟩ := by
  have := (C98_floor (⟨x, 0⟩ : Cx K) ⌊x⌋ 0).mpr (by
    have := Int.floor_le x
    have := Int.lt_floor_add_one x
    refine ⟨?_, ?_, ?_, ?_⟩ <;> push_cast <;> linarith)
  simpa using this

/-- and the ceiling the ordinary ceiling -/
theorem C98_ceil_real (x : K) : ceil (⟨x, 0⟩ : Cx K) = ⟨⌈x⌉, 0⟩ := by
  simp [ceil, C98_floor_real, Int.floor_neg]

/-- the ceiling is a Gaussian integer at a distance below one -/
theorem C98_ceil_near (c : Cx K) : ∃ m n : Int, ceil c = ⟨m, n⟩ ∧ (c.re - m) * (c.re - m) + (c.im - n) * (c.im - n) < 1 := by
  obtain ⟨m, n, e, d⟩ := C98_floor_near (⟨-c.re, -c.im⟩ : Cx K)
  refine ⟨-m, -n, by simp [ceil, e], ?_⟩
  push_cast
  simp only at d
  calc _ = (-c.re - m) * (-c.re - m) + (-c.im - n) * (-c.im - n) := by ring
    _ < 1 := d

/-- a complex number is an index iff it is a whole number on the real axis -/
theorem C98_index (c : Cx K) (n : Int) : toIndex c = some n ↔ c = ⟨n, 0⟩ := by
  obtain ⟨a, b⟩ := c
  simp only [toIndex, Cx.mk.injEq]
  by_cases hb : b = 0
  · subst hb
    simp only [ne_eq, not_true_eq_false, if_false, and_true]
    by_cases ha : 0 ≤ a
    · rw [if_pos ha]
      constructor
      · intro h
        split at h
        · rename_i e
          injection h with h
          rw [← h, e]
        · cases h
      · intro h
        subst h
        simp
    · rw [if_neg ha]
      constructor
      · intro h
        split at h
        · rename_i e
          injection h with h
          rw [← h, e]
        · cases h
      · intro h
        subst h
        simp
  · simp [hb]

/-- `×c` with float64 parts; the argument is a value and cannot change -/
theorem C98_direction_value (mag : Cx K → K) (c : Cx K) (hm : 0 ≤ mag c ∧ mag c * mag c = c.re * c.re + c.im * c.im) :
    (c = ⟨0, 0⟩ → direction mag c = ⟨0, 0⟩) ∧
    (c ≠ ⟨0, 0⟩ → (direction mag c).re * mag c = c.re ∧ (direction mag c).im * mag c = c.im ∧
      (direction mag c).re * (direction mag c).re + (direction mag c).im * (direction mag c).im = 1) := by
  refine ⟨fun e => by simp [direction, e], fun p => ?_⟩
  have m0 : mag c ≠ 0 := by
    intro e
    rw [e] at hm
    have h1 := mul_self_nonneg c.re
    have h2 := mul_self_nonneg c.im
    have z1 : c.re = 0 := mul_self_eq_zero.mp (by linarith)
    have z2 : c.im = 0 := mul_self_eq_zero.mp (by linarith)
    exact p (by rw [show c = ⟨c.re, c.im⟩ from rfl, z1, z2])
  simp only [direction, if_neg p]
  refine ⟨by field_simp, by field_simp, ?_⟩
  field_simp
  rw [pow_two, pow_two, pow_two, hm.2]

/-! ### concrete cases -/

/-- 3J4 and 1J¯2 in memory -/
noncomputable def demoHeap : FHeap ℝ := ⟨fun i => if i = 0 then 3 else if i = 1 then 4 else if i = 2 then 1 else -2, 4⟩

theorem demo_has : demoHeap.Has ⟨0, 1⟩ ∧ demoHeap.Has ⟨2, 3⟩ := by
  simp [FHeap.Has, demoHeap]

theorem demo_sqrt : IsSqrt Real.sqrt := fun x hx => ⟨Real.sqrt_nonneg x, Real.mul_self_sqrt hx⟩

/-- the product of 3J4 and 1J¯2 is 11J¯2 -/
example : (mul2 ⟨0, 1⟩ ⟨2, 3⟩ demoHeap).2.val (mul2 ⟨0, 1⟩ ⟨2, 3⟩ demoHeap).1 = ⟨11, -2⟩ := by
  rw [(C98_mul _ _ demoHeap demo_has.1 demo_has.2).value]
  simp [demoHeap]
  norm_num

/-- `×3J4` changes 3J4 -/
example : ∃ z h', dir Real.sqrt ⟨0, 1⟩ demoHeap = (z, h') ∧ h'.val ⟨0, 1⟩ ≠ demoHeap.val ⟨0, 1⟩ := by
  obtain ⟨z, h', e, -, -, -, -, -, -, w⟩ := C98_direction Real.sqrt demo_sqrt ⟨0, 1⟩ demoHeap demo_has.1
  refine ⟨z, h', e, (w ?_).2⟩
  simp [FHeap.val, demoHeap]

/-- 3J4 ÷ 1J¯2 is a number -/
example : ∃ z h' v, div2 ⟨0, 1⟩ ⟨2, 3⟩ demoHeap = (some z, h') ∧ Result demoHeap z h' v ∧ v * demoHeap.val ⟨2, 3⟩ = demoHeap.val ⟨0, 1⟩ := by
  refine (C98_divide _ _ demoHeap demo_has.1 demo_has.2).2 ?_
  simp [FHeap.val, demoHeap]

/-- the floor of 2.5J3.75 is 2J4 -/
example : floor (⟨5 / 2, 15 / 4⟩ : Cx ℝ) = ⟨2, 4⟩ := by
  have := (C98_floor (⟨5 / 2, 15 / 4⟩ : Cx ℝ) 2 4).mpr (by
    refine ⟨?_, ?_, ?_, ?_⟩ <;> norm_num)
  simpa using this

/-- a big number that is not exact as a float64 has a wrong floor: the floor of a whole number `v` that rounds to another whole number `w` is `w` -/
theorem C98_floor_rounds (f64 : K → K) (x : Nat) (h : FHeap K) (v w : Int) (hv : h.get x = v) (hw : f64 v = w) (hne : v ≠ w) :
    (floorPart f64 x h).2.get (floorPart f64 x h).1 ≠ h.get x := by
  simp [floorPart, rd, wr, new, bind, StateT.bind, pure, StateT.pure, hv, hw]
  exact fun e => hne e.symm

end Cplx
end Iv

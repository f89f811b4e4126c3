import Verif.Props.Time
/-
C83: rounding times to periods.
-/
namespace Iv

/-! ### Specification -/

/-- a leap year -/
def Leap (y : Int) : Prop := y % 4 = 0 ∧ (y % 100 ≠ 0 ∨ y % 400 = 0)

instance (y : Int) : Decidable (Leap y) := inferInstanceAs (Decidable (_ ∧ _))

/-- the number of days of a month -/
def daysIn (y : Int) : Nat → Int
  | 2 => if Leap y then 29 else 28
  | 4 => 30
  | 6 => 30
  | 9 => 30
  | 11 => 30
  | _ => 31

/-- `FirstOf y m d`: the day `d` (counted from 0000.01.01) is the first of the month `m` of the year `y`.  Each month begins when the one before ends;
years are counted in both directions. -/
inductive FirstOf : Int → Nat → Int → Prop
  | zero : FirstOf 0 1 0
  | month {y m d} : FirstOf y m d → m < 12 → FirstOf y (m + 1) (d + daysIn y m)
  | next {y d} : FirstOf y 12 d → FirstOf (y + 1) 1 (d + 31)
  | prev {y d} : FirstOf y 1 d → FirstOf (y - 1) 1 (d - if Leap (y - 1) then 366 else 365)

/-- the times at which a period begins; the day 0000.01.03 is a Monday -/
def Starts (period : String) (t : Int) : Prop :=
  (period = "s" ∧ ∃ k : Int, t = k * 1000000000) ∨
  (period = "m" ∧ ∃ k : Int, t = k * (60 * 1000000000)) ∨
  (period = "h" ∧ ∃ k : Int, t = k * (3600 * 1000000000)) ∨
  (period = "D" ∧ ∃ k : Int, t = k * (86400 * 1000000000)) ∨
  (period = "W" ∧ ∃ k : Int, t = (7 * k + 2) * (86400 * 1000000000)) ∨
  (period = "M" ∧ ∃ y m d, FirstOf y m d ∧ t = d * (86400 * 1000000000)) ∨
  (period = "Q" ∧ ∃ y m d, FirstOf y m d ∧ (m = 1 ∨ m = 4 ∨ m = 7 ∨ m = 10) ∧ t = d * (86400 * 1000000000)) ∨
  (period = "Y" ∧ ∃ y d, FirstOf y 1 d ∧ t = d * (86400 * 1000000000))

/-- `r` is the begin of the period of `t`: the last begin of a period that is not after `t` -/
def BeginOf (period : String) (t r : Int) : Prop := Starts period r ∧ r ≤ t ∧ ∀ b, Starts period b → b ≤ t → b ≤ r

/-! ### The calendar -/

theorem isLeap_iff (y : Int) : isLeap y = true ↔ Leap y := by
  unfold isLeap Leap
  simp

theorem jan1_succ (y : Int) : jan1 (y + 1) = jan1 y + (if Leap y then 366 else 365) := by
  by_cases hl : Leap y
  · rw [if_pos hl]; unfold Leap at hl; unfold jan1; omega
  · rw [if_neg hl]; unfold Leap at hl; unfold jan1; omega

theorem jan1_le {x y : Int} (h : x ≤ y) : jan1 x + 365 * (y - x) ≤ jan1 y := by
  unfold jan1
  omega

theorem jan1_lt_iff (x y : Int) : jan1 x < jan1 y ↔ x < y := by
  constructor
  · intro h
    rcases Int.lt_or_le x y with h' | h'
    · exact h'
    · have := jan1_le h'; omega
  · intro h
    have := jan1_le (Int.le_of_lt h)
    omega

theorem yearOf_spec (d : Int) : jan1 (yearOf d) ≤ d ∧ d < jan1 (yearOf d + 1) := by
  unfold yearOf
  simp only
  have h1 : 146097 * (400 * d / 146097) ≤ 400 * d := by omega
  have h2 : 400 * d < 146097 * (400 * d / 146097) + 146097 := by omega
  generalize 400 * d / 146097 = y at *
  have a1 : jan1 (y - 1) ≤ d := by unfold jan1; omega
  have a2 : d < jan1 (y + 2) := by unfold jan1; omega
  split
  · rw [show y - 1 + 1 = y by omega]; exact ⟨a1, by assumption⟩
  · split
    · rw [show y + 1 + 1 = y + 2 by omega]; exact ⟨by assumption, a2⟩
    · omega

theorem yearOf_unique {d y : Int} (h1 : jan1 y ≤ d) (h2 : d < jan1 (y + 1)) : yearOf d = y := by
  obtain ⟨a, b⟩ := yearOf_spec d
  have c := (jan1_lt_iff y (yearOf d + 1)).1 (by omega)
  have e := (jan1_lt_iff (yearOf d) (y + 1)).1 (by omega)
  omega

/-- the days before month `m` -/
def before (y : Int) (m : Nat) : Int := (monthDays (isLeap y)).getD (m - 1) 0

theorem before_succ (y : Int) (m : Nat) (h1 : 1 ≤ m) (h2 : m < 12) : before y (m + 1) = before y m + daysIn y m := by
  unfold before
  by_cases hl : Leap y
  · rw [(isLeap_iff y).2 hl]
    have : m = 1 ∨ m = 2 ∨ m = 3 ∨ m = 4 ∨ m = 5 ∨ m = 6 ∨ m = 7 ∨ m = 8 ∨ m = 9 ∨ m = 10 ∨ m = 11 := by omega
    rcases this with rfl | rfl | rfl | rfl | rfl | rfl | rfl | rfl | rfl | rfl | rfl <;> simp [daysIn, hl, monthDays]
  · have : isLeap y = false := by cases h : isLeap y; rfl; exact absurd ((isLeap_iff y).1 h) hl
    rw [this]
    have : m = 1 ∨ m = 2 ∨ m = 3 ∨ m = 4 ∨ m = 5 ∨ m = 6 ∨ m = 7 ∨ m = 8 ∨ m = 9 ∨ m = 10 ∨ m = 11 := by omega
    rcases this with rfl | rfl | rfl | rfl | rfl | rfl | rfl | rfl | rfl | rfl | rfl <;> simp [daysIn, hl, monthDays]

theorem before_last (y : Int) : jan1 (y + 1) = jan1 y + before y 12 + 31 := by
  rw [jan1_succ]
  unfold before
  by_cases hl : Leap y
  · rw [(isLeap_iff y).2 hl, if_pos hl]; simp [monthDays]; omega
  · have : isLeap y = false := by cases h : isLeap y; rfl; exact absurd ((isLeap_iff y).1 h) hl
    rw [this, if_neg hl]; simp [monthDays]; omega

/-- the first days of the months, by formula -/
theorem firstOf_iff (y : Int) (m : Nat) (d : Int) : FirstOf y m d ↔ 1 ≤ m ∧ m ≤ 12 ∧ d = jan1 y + before y m := by
  have b1 : ∀ y, before y 1 = 0 := fun y => by unfold before monthDays; rfl
  constructor
  · intro h
    induction h with
    | zero => exact ⟨by omega, by omega, by rw [b1]; rfl⟩
    | @month y m d _ hm ih => exact ⟨by omega, by omega, by rw [before_succ y m ih.1 hm, ih.2.2]; omega⟩
    | @next y d _ ih => exact ⟨by omega, by omega, by rw [b1, before_last, ih.2.2]; omega⟩
    | @prev y d _ ih =>
      refine ⟨by omega, by omega, ?_⟩
      have := jan1_succ (y - 1)
      rw [show y - 1 + 1 = y by omega] at this
      rw [b1] at ih
      rw [b1, ih.2.2, this]
      omega
  · rintro ⟨h1, h2, rfl⟩
    have months : ∀ y, FirstOf y 1 (jan1 y) → ∀ m, 1 ≤ m → m ≤ 12 → FirstOf y m (jan1 y + before y m) := by
      intro y hy m h1 h2
      induction m with
      | zero => omega
      | succ m ih =>
        rcases Nat.eq_zero_or_pos m with rfl | hm
        · rw [b1]; simpa using hy
        · have := (ih hm (by omega)).month (by omega)
          rw [before_succ y m hm (by omega), ← Int.add_assoc]
          exact this
    have up : ∀ n : Nat, FirstOf n 1 (jan1 n) := by
      intro n
      induction n with
      | zero => exact .zero
      | succ n ih =>
        have := (months n ih 12 (by omega) (by omega)).next
        rw [← before_last] at this
        exact this
    have down : ∀ n : Nat, FirstOf (-n) 1 (jan1 (-n)) := by
      intro n
      induction n with
      | zero => exact .zero
      | succ n ih =>
        have e := jan1_succ (-(n : Int) - 1)
        rw [show -(n : Int) - 1 + 1 = -n by omega] at e
        have := ih.prev
        rw [show jan1 (-(n : Int)) - (if Leap (-(n : Int) - 1) then 366 else 365) = jan1 (-(n : Int) - 1) by rw [e]; omega] at this
        rw [show -((n + 1 : Nat) : Int) = -(n : Int) - 1 by omega]
        exact this
    refine months y ?_ m h1 h2
    rcases Int.le_total 0 y with h | h
    · have := up y.toNat
      rwa [Int.toNat_of_nonneg h] at this
    · have := down (-y).toNat
      rwa [Int.toNat_of_nonneg (by omega), Int.neg_neg] at this

theorem firstOf_range {y : Int} {m : Nat} {d : Int} (h : FirstOf y m d) : jan1 y ≤ d ∧ d < jan1 (y + 1) := by
  obtain ⟨h1, h2, rfl⟩ := (firstOf_iff _ _ _).1 h
  have hb : 0 ≤ before y m ∧ before y m ≤ 335 := by
    unfold before monthDays
    have : m = 1 ∨ m = 2 ∨ m = 3 ∨ m = 4 ∨ m = 5 ∨ m = 6 ∨ m = 7 ∨ m = 8 ∨ m = 9 ∨ m = 10 ∨ m = 11 ∨ m = 12 := by omega
    cases isLeap y <;> rcases this with rfl | rfl | rfl | rfl | rfl | rfl | rfl | rfl | rfl | rfl | rfl | rfl <;> simp
  have := jan1_le (show y ≤ y + 1 by omega)
  omega

theorem goDate_eq (y : Int) (m : Nat) (d : Int) (h1 : 1 ≤ m) (h2 : m ≤ 12) : goDate y m d = jan1 y + before y m + d - 1 := by
  unfold goDate before
  simp only
  rw [show ((m : Int) - 1) / 12 = 0 by omega, Int.add_zero, show (((m : Int) - 1) % 12).toNat = m - 1 by omega]

theorem count_sorted (n : Int) : ∀ (cs : List Int), cs.Pairwise (· < ·) →
    (∀ i, i < (cs.filter (fun c => decide (c ≤ n))).length → cs.getD i 0 ≤ n) ∧
    (∀ i, (cs.filter (fun c => decide (c ≤ n))).length ≤ i → i < cs.length → n < cs.getD i 0)
  | [], _ => ⟨fun i h => by simp at h, fun i _ h => by simp at h⟩
  | c :: cs, h => by
    obtain ⟨h1, h2⟩ := List.pairwise_cons.1 h
    obtain ⟨a, b⟩ := count_sorted n cs h2
    by_cases hc : c ≤ n
    · rw [List.filter_cons_of_pos (by simpa using hc), List.length_cons]
      constructor
      · intro i hi
        cases i with
        | zero => exact hc
        | succ i => exact a i (by omega)
      · intro i hi hl
        cases i with
        | zero => omega
        | succ i => exact b i (by omega) (by simpa using hl)
    · rw [List.filter_cons_of_neg (by simpa using hc)]
      rw [List.filter_eq_nil_iff.2 (fun x hx => by have := h1 x hx; simp; omega)] at *
      constructor
      · intro i hi; simp at hi
      · intro i hi hl
        cases i with
        | zero => show n < c; omega
        | succ i => exact b i (by simp) (by simpa using hl)

theorem monthOf_spec (y yday : Int) (h0 : 0 ≤ yday) :
    1 ≤ monthOf (isLeap y) yday ∧ monthOf (isLeap y) yday ≤ 12 ∧ before y (monthOf (isLeap y) yday) ≤ yday ∧
      (monthOf (isLeap y) yday < 12 → yday < before y (monthOf (isLeap y) yday + 1)) := by
  unfold before monthOf
  generalize isLeap y = l
  have hs : (monthDays l).Pairwise (· < ·) := by cases l <;> decide
  have hl : (monthDays l).length = 12 := by cases l <;> rfl
  have hz : (monthDays l).getD 0 0 = 0 := by cases l <;> rfl
  obtain ⟨a, b⟩ := count_sorted yday (monthDays l) hs
  have h1 : 1 ≤ ((monthDays l).filter (fun c => decide (c ≤ yday))).length := by
    rcases Nat.eq_zero_or_pos ((monthDays l).filter (fun c => decide (c ≤ yday))).length with h | h
    · have := b 0 (by omega) (by omega)
      rw [hz] at this
      omega
    · exact h
  refine ⟨h1, by rw [← hl]; exact List.length_filter_le .., a _ (by omega), ?_⟩
  intro h
  exact b _ (by omega) (by omega)

/-- A day is in the month that Go gives. -/
theorem civil_spec (d : Int) : 1 ≤ (civil d).2.1 ∧ (civil d).2.1 ≤ 12 ∧ goDate (civil d).1 (civil d).2.1 (civil d).2.2 = d ∧
    (∀ e, FirstOf (civil d).1 (civil d).2.1 e → e ≤ d) ∧
    (∀ y m e, FirstOf y m e → e ≤ d → e ≤ jan1 (civil d).1 + before (civil d).1 (civil d).2.1) ∧
    (∀ y e, FirstOf y 1 e → e ≤ d → e ≤ jan1 (civil d).1) := by
  obtain ⟨hy1, hy2⟩ := yearOf_spec d
  obtain ⟨h1, h2, h3, h4⟩ := monthOf_spec (yearOf d) (d - jan1 (yearOf d)) (by omega)
  have e1 : (civil d).1 = yearOf d := rfl
  have e2 : (civil d).2.1 = monthOf (isLeap (yearOf d)) (d - jan1 (yearOf d)) := rfl
  have e3 : (civil d).2.2 = d - jan1 (yearOf d) - before (yearOf d) (monthOf (isLeap (yearOf d)) (d - jan1 (yearOf d))) + 1 := rfl
  rw [e1, e2, e3]
  generalize monthOf (isLeap (yearOf d)) (d - jan1 (yearOf d)) = m at *
  have mono : ∀ y a b, 1 ≤ a → a ≤ b → b ≤ 12 → before y a ≤ before y b := by
    intro y a b ha hab hb
    obtain ⟨k, rfl⟩ := Nat.exists_eq_add_of_le hab
    induction k with
    | zero => exact Int.le_refl _
    | succ k ih =>
      have := before_succ y (a + k) (by omega) (by omega)
      have hp : 0 ≤ daysIn y (a + k) := by unfold daysIn; split <;> (try split) <;> omega
      have := ih (by omega) (by omega)
      rw [← Nat.add_assoc]
      omega
  have top : ∀ y a, 1 ≤ a → a ≤ 12 → jan1 y + before y a < jan1 (y + 1) := by
    intro y a ha hb
    have := mono y a 12 ha hb (by omega)
    have := before_last y
    omega
  have b1 : ∀ y, before y 1 = 0 := fun y => by unfold before monthDays; rfl
  refine ⟨h1, h2, ?_, ?_, ?_, ?_⟩
  · rw [goDate_eq _ _ _ h1 h2]; omega
  · intro e he
    obtain ⟨_, _, rfl⟩ := (firstOf_iff _ _ _).1 he
    omega
  · intro y k e he hle
    obtain ⟨k1, k2, rfl⟩ := (firstOf_iff _ _ _).1 he
    have hk0 := mono y 1 k (by omega) k1 k2
    rw [b1] at hk0
    have hyy : y < yearOf d + 1 := (jan1_lt_iff _ _).1 (by omega)
    rcases Int.lt_or_le y (yearOf d) with h | h
    · have h5 := top y k k1 k2
      have h6 := jan1_le (show y + 1 ≤ yearOf d by omega)
      have h7 := mono (yearOf d) 1 m (by omega) h1 h2
      rw [b1] at h7
      omega
    · have : y = yearOf d := by omega
      subst this
      rcases Nat.lt_or_ge m k with hmk | hmk
      · have h5 := h4 (by omega)
        have h6 := mono (yearOf d) (m + 1) k (by omega) hmk k2
        omega
      · have := mono (yearOf d) k m k1 hmk h2
        omega
  · intro y e he hle
    obtain ⟨_, _, rfl⟩ := (firstOf_iff _ _ _).1 he
    rw [b1] at *
    have hyy : y < yearOf d + 1 := (jan1_lt_iff _ _).1 (by omega)
    have h6 := jan1_le (show y ≤ yearOf d by omega)
    omega

/-! ### Weeks -/

theorem dayLoop_ok (P : Int → Bool) (step : Int) : ∀ (k : Nat) (d : Int), (∀ i : Nat, i < k → P (d + step * i) = true) → P (d + step * k) = false →
    ∀ n, k < n → dayLoop P step n d = some (d + step * k)
  | 0, d, _, h2, n + 1, _ => by
    simp only [Int.natCast_zero, Int.mul_zero, Int.add_zero] at h2
    simp [dayLoop, h2]
  | k + 1, d, h1, h2, n + 1, hn => by
    have h0 := h1 0 (by omega)
    simp only [Int.natCast_zero, Int.mul_zero, Int.add_zero] at h0
    have sh : ∀ i : Nat, d + step + step * i = d + step * ((i + 1 : Nat) : Int) := by intro i; rw [Int.natCast_add, Int.mul_add]; omega
    have := dayLoop_ok P step k (d + step) (fun i hi => by rw [sh]; exact h1 (i + 1) (by omega)) (by rw [sh]; exact h2) n (by omega)
    simp only [dayLoop, h0, if_true]
    rw [this, sh]

/-- the Monday of a day -/
def monday (d : Int) : Int := d - (d + 5) % 7

theorem isoWeek_eq (d : Int) : isoWeek d = (yearOf (monday d + 3), (monday d + 3 - jan1 (yearOf (monday d + 3))) / 7 + 1) := by
  have : (if weekday d = 0 then d - 3 else d + (4 - weekday d)) = monday d + 3 := by
    unfold weekday monday
    split <;> omega
  unfold isoWeek
  simp only [this]

theorem roundWeek_eq (d : Int) : ∀ n, 800 ≤ n → roundWeek n (isoWeek d).1 (isoWeek d).2 = some (monday d) := by
  intro n hn
  obtain ⟨y1, y2⟩ := yearOf_spec (monday d + 3)
  rw [isoWeek_eq]
  simp only
  generalize hy : yearOf (monday d + 3) = y at *
  have hyl := jan1_succ y
  have hyl' : jan1 (y + 1) ≤ jan1 y + 366 := by rw [hyl]; split <;> omega
  have hm : monday (monday d) = monday d := by unfold monday; omega
  have hmm : (monday d + 5) % 7 = 0 := by unfold monday; omega
  generalize monday d = m at *
  have e0 : goDate y 0 0 = jan1 y - 32 := by
    unfold goDate
    simp only
    rw [show (0 - 1 : Int) / 12 = -1 by decide, show ((0 - 1 : Int) % 12).toNat = 11 by decide]
    have := before_last (y + -1)
    rw [show y + -1 + 1 = y by omega] at this
    unfold before at this
    rw [show (12 - 1 : Nat) = 11 from rfl] at this
    omega
  unfold roundWeek
  rw [e0]
  -- down to Monday
  have l1 := dayLoop_ok (fun d => weekday d != 1) (-1) ((jan1 y - 32 + 5) % 7).toNat (jan1 y - 32)
    (by
      intro i hi
      have : weekday (jan1 y - 32 + -1 * i) ≠ 1 := by unfold weekday; omega
      simpa using this)
    (by
      have : weekday (jan1 y - 32 + -1 * (((jan1 y - 32 + 5) % 7).toNat : Int)) = 1 := by unfold weekday; omega
      simpa using this) n (by omega)
  rw [l1, Option.bind_some]
  have hm0 : ∃ m0, m0 = jan1 y - 32 + -1 * (((jan1 y - 32 + 5) % 7).toNat : Int) := ⟨_, rfl⟩
  obtain ⟨m0, hm0⟩ := hm0
  rw [← hm0]
  have c1 : (m0 + 5) % 7 = 0 := by omega
  have c2 : m0 ≤ jan1 y - 32 ∧ jan1 y - 39 < m0 := by omega
  -- up to the first week of the year
  have hm1 : ∃ m1, m1 = jan1 y + 3 - (jan1 y + 8) % 7 := ⟨_, rfl⟩
  obtain ⟨m1, hm1⟩ := hm1
  have d1 : (m1 + 5) % 7 = 0 := by omega
  have d2 : jan1 y ≤ m1 + 3 ∧ m1 + 3 < jan1 y + 7 := by omega
  have l2 := dayLoop_ok (fun d => decide ((isoWeek d).1 < y)) 1 (m1 - m0).toNat m0
    (by
      intro i hi
      rw [isoWeek_eq]
      simp only [decide_eq_true_eq]
      have h1 : monday (m0 + 1 * i) + 3 < jan1 y := by unfold monday; omega
      obtain ⟨a, b⟩ := yearOf_spec (monday (m0 + 1 * i) + 3)
      exact (jan1_lt_iff _ _).1 (by omega))
    (by
      rw [isoWeek_eq]
      simp only [decide_eq_false_iff_not]
      have e : m0 + 1 * ((m1 - m0).toNat : Int) = m1 := by omega
      rw [e]
      have h1 : monday m1 = m1 := by unfold monday; omega
      rw [h1]
      obtain ⟨a, b⟩ := yearOf_spec (m1 + 3)
      have := (jan1_lt_iff y (yearOf (m1 + 3) + 1)).1 (by omega)
      omega) n (by omega)
  rw [l2, Option.bind_some]
  rw [show m0 + 1 * ((m1 - m0).toNat : Int) = m1 by omega]
  -- up to the week
  have hle : m1 ≤ m := by omega
  have l3 := dayLoop_ok (fun d => decide ((isoWeek d).2 < (m + 3 - jan1 y) / 7 + 1)) 1 (m - m1).toNat m1
    (by
      intro i hi
      rw [isoWeek_eq]
      simp only [decide_eq_true_eq]
      have h1 : monday (m1 + 1 * i) + 3 < m + 3 ∧ jan1 y ≤ monday (m1 + 1 * i) + 3 := by unfold monday; omega
      have h2 : (monday (m1 + 1 * i) + 5) % 7 = 0 := by unfold monday; omega
      rw [yearOf_unique h1.2 (by omega)]
      omega)
    (by
      rw [isoWeek_eq]
      simp only [decide_eq_false_iff_not]
      rw [show m1 + 1 * ((m - m1).toNat : Int) = m by omega, hm, hy]
      omega) n (by omega)
  rw [l3, show m1 + 1 * ((m - m1).toNat : Int) = m by omega]

/-! ### The theorems -/

theorem le_day (e t : Int) : e * nsDay ≤ t ↔ e ≤ t / nsDay := by
  unfold nsDay; omega

/-- Rounding a time stamp to seconds, minutes, hours, days, weeks, months, quarters or years ends, and gives the begin of the period. -/
theorem C83_stamp (t : Int) (hs : 365243 * (86400 * 1000000000) ≤ t) (p : String)
    (hp : p ∈ ["s", "m", "h", "D", "W", "M", "Q", "Y"]) :
    ∃ r, (∀ n, 800 ≤ n → timeRound n t p = some (.ok r)) ∧ BeginOf p t r := by
  have e0 : ∀ n, timeRound n t p = roundStamp n t p := by
    intro n
    unfold timeRound timeDuration
    rw [if_neg (by rw [y1k_eq]; omega)]
  obtain ⟨c1, c2, c3, c4, c5, c6⟩ := civil_spec (t / nsDay)
  have hday : t / nsDay * nsDay ≤ t := (le_day _ _).2 (Int.le_refl _)
  have b1 : ∀ y, before y 1 = 0 := fun y => by unfold before monthDays; rfl
  have n1 : nsDay = 86400 * 1000000000 := rfl
  have first : ∀ m : Nat, 1 ≤ m → m ≤ 12 → FirstOf (civil (t / nsDay)).1 m (goDate (civil (t / nsDay)).1 m 1) := fun m h1 h2 =>
    (firstOf_iff _ _ _).2 ⟨h1, h2, by rw [goDate_eq _ _ _ h1 h2]; omega⟩
  simp only [List.mem_cons, List.not_mem_nil, or_false] at hp
  rcases hp with rfl | rfl | rfl | rfl | rfl | rfl | rfl | rfl
  · refine ⟨t / 1000000000 * 1000000000, ?_, .inl ⟨rfl, _, rfl⟩, by omega, ?_⟩
    · intro n _
      rw [e0]
      simp [roundStamp]
      rw [c3]
      unfold nsDay
      omega
    · rintro b hb hl
      obtain ⟨k, rfl⟩ : ∃ k : Int, b = k * 1000000000 := by simpa [Starts] using hb
      omega
  · refine ⟨t / (60 * 1000000000) * (60 * 1000000000), ?_, .inr (.inl ⟨rfl, _, rfl⟩), by omega, ?_⟩
    · intro n _
      rw [e0]
      simp [roundStamp]
      rw [c3]
      unfold nsDay
      omega
    · rintro b hb hl
      obtain ⟨k, rfl⟩ : ∃ k : Int, b = k * (60 * 1000000000) := by simpa [Starts] using hb
      omega
  · refine ⟨t / (3600 * 1000000000) * (3600 * 1000000000), ?_, .inr (.inr (.inl ⟨rfl, _, rfl⟩)), by omega, ?_⟩
    · intro n _
      rw [e0]
      simp [roundStamp]
      rw [c3]
      unfold nsDay
      omega
    · rintro b hb hl
      obtain ⟨k, rfl⟩ : ∃ k : Int, b = k * (3600 * 1000000000) := by simpa [Starts] using hb
      omega
  · refine ⟨t / nsDay * nsDay, ?_, .inr (.inr (.inr (.inl ⟨rfl, _, rfl⟩))), hday, ?_⟩
    · intro n _
      rw [e0]
      simp [roundStamp]
      rw [c3]
    · rintro b hb hl
      obtain ⟨k, rfl⟩ : ∃ k : Int, b = k * nsDay := by simpa [Starts, nsDay] using hb
      rw [n1] at *
      omega
  · refine ⟨monday (t / nsDay) * nsDay, ?_, .inr (.inr (.inr (.inr (.inl ⟨rfl, (monday (t / nsDay) - 2) / 7, ?_⟩)))), ?_, ?_⟩
    · intro n hn
      rw [e0]
      simp [roundStamp, roundWeek_eq _ n hn]
    · rw [n1]
      have : monday (t / (86400 * 1000000000)) = 7 * ((monday (t / (86400 * 1000000000)) - 2) / 7) + 2 := by unfold monday; omega
      rw [← this]
    · rw [le_day]; unfold monday; omega
    · rintro b hb hl
      obtain ⟨k, rfl⟩ : ∃ k : Int, b = (7 * k + 2) * nsDay := by simpa [Starts, nsDay] using hb
      rw [le_day] at hl
      have : 7 * k + 2 ≤ monday (t / nsDay) := by unfold monday; omega
      exact Int.mul_le_mul_of_nonneg_right this (by decide)
  · refine ⟨goDate (civil (t / nsDay)).1 (civil (t / nsDay)).2.1 1 * nsDay, ?_, .inr (.inr (.inr (.inr (.inr (.inl ⟨rfl, _, _, _, first _ c1 c2, rfl⟩))))), ?_, ?_⟩
    · intro n _
      rw [e0]
      simp [roundStamp]
    · rw [le_day]; exact c4 _ (first _ c1 c2)
    · rintro b hb hl
      obtain ⟨y, m, d, hd, rfl⟩ : ∃ y m d, FirstOf y m d ∧ b = d * nsDay := by simpa [Starts, nsDay] using hb
      rw [le_day] at hl
      have := c5 y m d hd hl
      refine Int.mul_le_mul_of_nonneg_right ?_ (by decide)
      rw [goDate_eq _ _ _ c1 c2]
      omega
  · obtain ⟨m, hr, hm, h1, h2⟩ : ∃ m : Nat, (roundQuarter t).1 = goDate (civil (t / nsDay)).1 m 1 * nsDay ∧ (m = 1 ∨ m = 4 ∨ m = 7 ∨ m = 10) ∧
        goDate (civil (t / nsDay)).1 m 1 ≤ t / nsDay ∧
        ∀ y k e, FirstOf y k e → (k = 1 ∨ k = 4 ∨ k = 7 ∨ k = 10) → e ≤ t / nsDay → e ≤ goDate (civil (t / nsDay)).1 m 1 := by
      have hlt : ∀ e, t < e * nsDay ↔ t / nsDay < e := by intro e; unfold nsDay; omega
      have hcase : ∀ y k e, FirstOf y k e → e ≤ t / nsDay → e < goDate (civil (t / nsDay)).1 (1 : Nat) 1 ∨ e = goDate (civil (t / nsDay)).1 k 1 := by
        intro y k e he hle
        obtain ⟨r1, r2⟩ := firstOf_range he
        have hy := yearOf_spec (t / nsDay)
        have ey : (civil (t / nsDay)).1 = yearOf (t / nsDay) := rfl
        have h3 : y < yearOf (t / nsDay) + 1 := (jan1_lt_iff _ _).1 (by omega)
        rw [ey, goDate_eq _ _ _ (by omega) (by omega), b1]
        rcases Int.lt_or_le y (yearOf (t / nsDay)) with h | h
        · have := jan1_le (show y + 1 ≤ yearOf (t / nsDay) by omega)
          left; omega
        · have : y = yearOf (t / nsDay) := by omega
          subst this
          obtain ⟨k1, k2, rfl⟩ := (firstOf_iff _ _ _).1 he
          right
          rw [goDate_eq _ _ _ k1 k2]
          omega
      have f1 := firstOf_range (first 1 (by omega) (by omega))
      have o1 : goDate (civil (t / nsDay)).1 ((1 : Nat) : Int) 1 < goDate (civil (t / nsDay)).1 ((4 : Nat) : Int) 1 ∧
          goDate (civil (t / nsDay)).1 ((4 : Nat) : Int) 1 < goDate (civil (t / nsDay)).1 ((7 : Nat) : Int) 1 ∧
          goDate (civil (t / nsDay)).1 ((7 : Nat) : Int) 1 < goDate (civil (t / nsDay)).1 ((10 : Nat) : Int) 1 := by
        rw [goDate_eq _ _ _ (by omega) (by omega), goDate_eq _ _ _ (by omega) (by omega), goDate_eq _ _ _ (by omega) (by omega),
          goDate_eq _ _ _ (by omega) (by omega)]
        unfold before monthDays
        cases isLeap (civil (t / nsDay)).1 <;> simp <;> omega
      have hd0 : goDate (civil (t / nsDay)).1 ((1 : Nat) : Int) 1 ≤ t / nsDay := by
        have := (yearOf_spec (t / nsDay)).1
        have ey : (civil (t / nsDay)).1 = yearOf (t / nsDay) := rfl
        rw [ey, goDate_eq _ _ _ (by omega) (by omega), b1]
        omega
      have pick : ∀ m : Nat, (m = 1 ∨ m = 4 ∨ m = 7 ∨ m = 10) → goDate (civil (t / nsDay)).1 m 1 ≤ t / nsDay →
          (∀ k : Nat, (k = 4 ∨ k = 7 ∨ k = 10) → m < k → t / nsDay < goDate (civil (t / nsDay)).1 k 1) →
          ∀ y k e, FirstOf y k e → (k = 1 ∨ k = 4 ∨ k = 7 ∨ k = 10) → e ≤ t / nsDay → e ≤ goDate (civil (t / nsDay)).1 m 1 := by
        intro m hm hle hnext y k e he hk hel
        have hge : goDate (civil (t / nsDay)).1 ((1 : Nat) : Int) 1 ≤ goDate (civil (t / nsDay)).1 m 1 := by
          rcases hm with rfl | rfl | rfl | rfl <;> omega
        rcases hcase y k e he hel with h | h
        · omega
        · rcases Nat.lt_or_ge m k with hmk | hmk
          · have := hnext k (by omega) hmk
            omega
          · rw [h]
            rcases hm with rfl | rfl | rfl | rfl <;> rcases hk with rfl | rfl | rfl | rfl <;> omega
      unfold roundQuarter
      simp only [hlt]
      split
      · refine ⟨1, rfl, by omega, hd0, pick 1 (by omega) hd0 ?_⟩
        rename_i h4
        rintro k (rfl | rfl | rfl) _ <;> simp only [Int.cast_ofNat_Int] at * <;> omega
      · split
        · rename_i h4 h7
          have h4' : goDate (civil (t / nsDay)).1 ((4 : Nat) : Int) 1 ≤ t / nsDay := by simp only [Int.cast_ofNat_Int] at *; omega
          refine ⟨4, rfl, by omega, h4', pick 4 (by omega) h4' ?_⟩
          rintro k (rfl | rfl | rfl) hk <;> simp only [Int.cast_ofNat_Int] at * <;> omega
        · split
          · rename_i h4 h7 h10
            have h4' : goDate (civil (t / nsDay)).1 ((7 : Nat) : Int) 1 ≤ t / nsDay := by simp only [Int.cast_ofNat_Int] at *; omega
            refine ⟨7, rfl, by omega, h4', pick 7 (by omega) h4' ?_⟩
            rintro k (rfl | rfl | rfl) hk <;> simp only [Int.cast_ofNat_Int] at * <;> omega
          · rename_i h4 h7 h10
            have h4' : goDate (civil (t / nsDay)).1 ((10 : Nat) : Int) 1 ≤ t / nsDay := by simp only [Int.cast_ofNat_Int] at *; omega
            refine ⟨10, rfl, by omega, h4', pick 10 (by omega) h4' ?_⟩
            rintro k (rfl | rfl | rfl) hk <;> omega
    refine ⟨goDate (civil (t / nsDay)).1 m 1 * nsDay, ?_,
      .inr (.inr (.inr (.inr (.inr (.inr (.inl ⟨rfl, _, m, _, first m (by omega) (by omega), hm, rfl⟩)))))), (le_day _ _).2 h1, ?_⟩
    · intro n _
      rw [e0]
      simp [roundStamp, hr]
    · rintro b hb hl
      obtain ⟨y, k, d, hd, hk, rfl⟩ : ∃ y m d, FirstOf y m d ∧ (m = 1 ∨ m = 4 ∨ m = 7 ∨ m = 10) ∧ b = d * nsDay := by simpa [Starts, nsDay] using hb
      rw [le_day] at hl
      exact Int.mul_le_mul_of_nonneg_right (h2 y k d hd hk hl) (by decide)
  · refine ⟨goDate (civil (t / nsDay)).1 (1 : Nat) 1 * nsDay, ?_, .inr (.inr (.inr (.inr (.inr (.inr (.inr ⟨rfl, _, _, first 1 (by omega) (by omega), rfl⟩)))))), ?_, ?_⟩
    · intro n _
      rw [e0]
      simp [roundStamp]
    · rw [le_day, goDate_eq _ _ _ (by omega) (by omega), b1]
      have := (yearOf_spec (t / nsDay)).1
      have e : (civil (t / nsDay)).1 = yearOf (t / nsDay) := rfl
      rw [e]
      omega
    · rintro b hb hl
      obtain ⟨y, d, hd, rfl⟩ : ∃ y d, FirstOf y 1 d ∧ b = d * nsDay := by simpa [Starts, nsDay] using hb
      rw [le_day] at hl
      have := c6 y d hd hl
      refine Int.mul_le_mul_of_nonneg_right ?_ (by decide)
      rw [goDate_eq _ _ _ (by omega) (by omega), b1]
      omega

/-- The begin of a period is unique. -/
theorem C83_unique (p : String) (t r r' : Int) (h : BeginOf p t r) (h' : BeginOf p t r') : r = r' := by
  have := h.2.2 r' h'.1 h'.2.1
  have := h'.2.2 r h.1 h.2.1
  omega

/-- A time stamp cannot be rounded to anything else. -/
theorem C83_unknown (t : Int) (hs : 365243 * (86400 * 1000000000) ≤ t) (p : String) (hp : p ∉ ["s", "m", "h", "D", "W", "M", "Q", "Y"]) (n : Nat) :
    timeRound n t p = some (.error .err) := by
  simp only [List.mem_cons, List.not_mem_nil, or_false, not_or] at hp
  unfold timeRound timeDuration
  rw [if_neg (by rw [y1k_eq]; omega)]
  simp [roundStamp, hp]

/-- the units of durations in nanoseconds -/
def Unit' (p : String) (m : Int) : Prop :=
  (p = "h" ∧ m = 3600000000000) ∨ (p = "m" ∧ m = 60000000000) ∨ (p = "s" ∧ m = 1000000000) ∨ (p = "ms" ∧ m = 1000000) ∨
    (p = "us" ∧ m = 1000) ∨ (p = "μs" ∧ m = 1000) ∨ (p = "ns" ∧ m = 1)

/-- Rounding a duration gives the nearest multiple of the unit; halfway it is the one farther from zero. -/
theorem C83_duration (d : Int) (p : String) (m : Int) (hp : Unit' p m) (h1 : -2 ^ 63 + m < d) (h2 : d < 2 ^ 63 - m) (n : Nat) :
    ∃ r, timeRound n d p = some (.ok r) ∧ r % m = 0 ∧ 2 * (r - d).natAbs ≤ m ∧ (2 * (r - d).natAbs = m → d.natAbs < r.natAbs) := by
  have hm : 0 < m ∧ m ≤ 3600000000000 ∧ durUnit p = some m := by
    rcases hp with ⟨rfl, rfl⟩ | ⟨rfl, rfl⟩ | ⟨rfl, rfl⟩ | ⟨rfl, rfl⟩ | ⟨rfl, rfl⟩ | ⟨rfl, rfl⟩ | ⟨rfl, rfl⟩ <;> exact ⟨by decide, by decide, by simp [durUnit]⟩
  have hdur : IsDur d := by unfold IsDur; omega
  have e : timeRound n d p = some (.ok (durRound d m)) := by
    unfold timeRound timeDuration
    rw [if_pos (dur_y1k hdur).2]
    have e' : timeSub d 0 = d := by rw [timeSub_dur (by simpa using hdur)]; omega
    simp only [e', roundDuration, hm.2.2, Int.zero_add]
  refine ⟨_, e, ?_⟩
  have hr : Int.tmod d m = if d < 0 then -((-d) % m) else d % m := by
    split
    · rw [← Int.tmod_eq_emod_of_nonneg (by omega : 0 ≤ -d), Int.neg_tmod, Int.neg_neg]
    · exact Int.tmod_eq_emod_of_nonneg (by omega)
  unfold durRound
  simp only
  rw [hr]
  rcases hp with ⟨rfl, rfl⟩ | ⟨rfl, rfl⟩ | ⟨rfl, rfl⟩ | ⟨rfl, rfl⟩ | ⟨rfl, rfl⟩ | ⟨rfl, rfl⟩ | ⟨rfl, rfl⟩ <;>
  · by_cases hd : d < 0
    · simp only [hd, if_true]
      split
      · omega
      · split <;> omega
    · simp only [hd, if_false]
      split
      · omega
      · split <;> omega

/-- Rounding an array rounds each element. -/
theorem C83_array (n : Nat) (p : String) (f : Int → Int) : ∀ ts : List Int, (∀ t ∈ ts, timeRound n t p = some (.ok (f t))) →
    roundTimes n p ts = some (.ok (ts.map f))
  | [], _ => rfl
  | t :: ts, h => by
    simp only [roundTimes, h t (List.mem_cons_self ..), C83_array n p f ts (fun t' ht => h t' (List.mem_cons_of_mem _ ht)), List.map_cons]

/-- Exception: the week of the first days of the year 1000 begins before this year, where times are taken as durations. -/
theorem C83_week_1000 : timeRound 800 (365243 * (86400 * 1000000000)) "W" = some (.ok (365241 * (86400 * 1000000000))) ∧
    timeNeg (365241 * (86400 * 1000000000)) ≠ none := by
  refine ⟨?_, by decide⟩
  obtain ⟨r, h1, h2⟩ := C83_stamp (365243 * (86400 * 1000000000)) (by decide) "W" (by simp)
  rw [h1 800 (by omega)]
  congr 2
  refine C83_unique "W" _ _ _ h2 ⟨.inr (.inr (.inr (.inr (.inl ⟨rfl, 52177, by decide⟩)))), by decide, ?_⟩
  rintro b hb hl
  obtain ⟨k, rfl⟩ : ∃ k : Int, b = (7 * k + 2) * 86400000000000 := by simpa [Starts] using hb
  omega

/-- 2019.02.27, 15.39 o'clock -/
example : BeginOf "D" (737482 * (86400 * 1000000000) + 56340000000000) (737482 * (86400 * 1000000000)) ∧ FirstOf 2019 2 737456 := by
  constructor
  · refine ⟨.inr (.inr (.inr (.inl ⟨rfl, 737482, rfl⟩))), by decide, ?_⟩
    rintro b hb hl
    obtain ⟨k, rfl⟩ : ∃ k : Int, b = k * 86400000000000 := by simpa [Starts] using hb
    omega
  · exact (firstOf_iff _ _ _).2 (by decide)

example : Unit' "ms" 1000000 := by simp [Unit']

end Iv

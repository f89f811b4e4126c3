import Verif.Model.Time
/-
C82: arithmetic with times and durations.
-/
namespace Iv

/-! ### Specification -/

/-- durations: less than about 292 years (63 bits of nanoseconds) -/
def IsDur (t : Int) : Prop := -2 ^ 63 < t ∧ t < 2 ^ 63

/-- time stamps: after the begin of the year 1000 -/
def IsStamp (t : Int) : Prop := 365243 * (86400 * 1000000000) < t

/-! ### Proofs -/

theorem y1k_eq : y1k = 365243 * (86400 * 1000000000) := by decide

theorem dur_y1k {t : Int} (h : IsDur t) : ¬ t > y1k ∧ t < y1k := by rw [y1k_eq]; unfold IsDur at h; omega

theorem stamp_y1k {t : Int} (h : IsStamp t) : t > y1k ∧ ¬ t < y1k := by rw [y1k_eq]; unfold IsStamp at h; omega

theorem timeSub_dur {t u : Int} (h : IsDur (t - u)) : timeSub t u = t - u := by unfold timeSub; unfold IsDur at h; omega

theorem negDur_dur {d : Int} (h : IsDur d) : negDur d = -d := by unfold negDur; unfold IsDur at h; rw [if_neg (by omega)]

/-- No time is both. -/
theorem C82_disjoint (t : Int) : ¬ (IsDur t ∧ IsStamp t) := by unfold IsDur IsStamp; omega

/-- The sum of two durations, and of a time stamp and a duration, is exact and does not depend on the order. -/
theorem C82_add (t d : Int) (hd : IsDur d) (ht : IsDur t ∨ IsStamp t) : timeAdd2 t d = some (t + d) ∧ timeAdd2 d t = some (t + d) := by
  have hd' := dur_y1k hd
  have e : timeSub d 0 = d := by rw [timeSub_dur (by simpa using hd)]; omega
  unfold timeAdd2
  rcases ht with ht | ht
  · have ht' := dur_y1k ht
    have e' : timeSub t 0 = t := by rw [timeSub_dur (by simpa using ht)]; omega
    simp only [ht'.1, hd'.1, false_and, if_false, e, e']
    exact ⟨by rw [Int.add_comm], trivial⟩
  · have ht' := stamp_y1k ht
    simp only [ht'.1, hd'.1, and_false, false_and, if_false, if_true, e]
    exact ⟨trivial, trivial⟩

/-- The sum of two time stamps is rejected. -/
theorem C82_add_stamps (t u : Int) (ht : IsStamp t) (hu : IsStamp u) : timeAdd2 t u = none := by
  unfold timeAdd2
  rw [if_pos ⟨(stamp_y1k ht).1, (stamp_y1k hu).1⟩]

/-- The difference of two time stamps is the exact duration, and adding it to the second gives the first. -/
theorem C82_difference (t u : Int) (ht : IsStamp t) (hu : IsStamp u) (h : IsDur (t - u)) :
    timeSub2 t u = some (t - u) ∧ timeAdd2 u (t - u) = some t := by
  constructor
  · unfold timeSub2
    rw [if_pos ⟨(stamp_y1k ht).1, (stamp_y1k hu).1⟩, timeSub_dur h]
    congr 1
    omega
  · rw [(C82_add u (t - u) h (.inr hu)).1]
    congr 1
    omega

/-- The difference of two durations and of a time stamp and a duration is exact, and adding the duration again gives the time. -/
theorem C82_sub (t d : Int) (hd : IsDur d) (ht : (IsDur t ∧ IsDur (t - d)) ∨ (IsStamp t ∧ IsStamp (t - d))) :
    timeSub2 t d = some (t - d) ∧ timeAdd2 (t - d) d = some t := by
  have hd' := dur_y1k hd
  have e : timeSub d 0 = d := by rw [timeSub_dur (by simpa using hd)]; omega
  constructor
  · unfold timeSub2
    rcases ht with ⟨ht, _⟩ | ⟨ht, _⟩
    · have ht' := dur_y1k ht
      have e' : timeSub t 0 = t := by rw [timeSub_dur (by simpa using ht)]; omega
      simp only [ht'.1, hd'.1, ht'.2, hd'.2, and_self, if_false, if_true, e, e', negDur_dur hd]
      congr 1
      omega
    · have ht' := stamp_y1k ht
      simp only [ht'.1, hd'.1, ht'.2, hd'.2, and_false, false_and, and_self, if_false, if_true, e, negDur_dur hd]
      congr 1
  · rw [(C82_add (t - d) d hd (ht.imp (fun h => h.2) (fun h => h.2))).1]
    congr 1
    omega

/-- A duration minus a time stamp is rejected. -/
theorem C82_sub_rejected (t d : Int) (hd : IsDur d) (ht : IsStamp t) : timeSub2 d t = none := by
  unfold timeSub2
  simp only [(stamp_y1k ht).1, (dur_y1k hd).1, (stamp_y1k ht).2, and_false, false_and, if_false]

/-- The negative and the absolute value of durations, and the sign; a time stamp has no negative. -/
theorem C82_neg (d : Int) (hd : IsDur d) : timeNeg d = some (-d) ∧ timeAbs d = d.natAbs ∧ timeSign d = d.sign := by
  have e : timeSub d 0 = d := by rw [timeSub_dur (by simpa using hd)]; omega
  refine ⟨?_, ?_, ?_⟩
  · unfold timeNeg
    rw [if_pos (dur_y1k hd).2, e, negDur_dur hd, Int.zero_add]
  · unfold timeAbs
    rw [e, negDur_dur hd]
    split <;> omega
  · unfold timeSign
    split
    · rw [Int.sign_eq_neg_one_of_neg ‹_›]
    · split
      · rw [Int.sign_eq_one_of_pos ‹_›]
      · rw [show d = 0 by omega]; rfl

theorem C82_neg_rejected (t : Int) (ht : IsStamp t) : timeNeg t = none := by unfold timeNeg; rw [if_neg (stamp_y1k ht).2]

/-- A time is before another if the difference is a negative duration; the order is total. -/
theorem C82_less (t u : Int) : (timeLess t u = true ↔ t < u) ∧ (timeLess t u = false → timeLess u t = false → t = u) := by
  unfold timeLess
  simp only [decide_eq_true_eq, decide_eq_false_iff_not]
  exact ⟨trivial, by omega⟩

/-- The order agrees with the difference. -/
theorem C82_less_difference (t u : Int) (h : (IsDur t ∧ IsDur u) ∨ (IsStamp t ∧ IsStamp u)) (hd : IsDur (t - u)) :
    timeLess t u = true ↔ ∃ d, timeSub2 t u = some d ∧ timeSign d = -1 := by
  have e : timeSub2 t u = some (t - u) := by
    rcases h with ⟨ht, hu⟩ | ⟨ht, hu⟩
    · exact (C82_sub t u hu (.inl ⟨ht, hd⟩)).1
    · exact (C82_difference t u ht hu hd).1
  rw [e, (C82_less t u).1]
  constructor
  · intro hl
    exact ⟨_, rfl, by unfold timeSign; rw [if_pos (by omega)]⟩
  · rintro ⟨d, hd', hs⟩
    cases hd'
    unfold timeSign at hs
    split at hs
    · omega
    · split at hs <;> omega

/-- `⌊T` is the last full second that is not after T. -/
theorem C82_floor (t : Int) : timeFloor t ≤ t ∧ timeFloor t % 1000000000 = 0 ∧ ∀ s, s % 1000000000 = 0 → s ≤ t → s ≤ timeFloor t := by
  unfold timeFloor
  refine ⟨by omega, by omega, ?_⟩
  intro s hs hl
  omega

/-- Exception: `⌈T` is the nearest full second, and it may be before T. -/
theorem C82_ceil (t : Int) : timeCeil t % 1000000000 = 0 ∧ t - 500000000 < timeCeil t ∧ timeCeil t ≤ t + 500000000 := by
  unfold timeCeil timeFloor
  omega

theorem C82_ceil_before : timeCeil 1200000000 = 1000000000 := by decide

/-- Exception: durations are limited to 292 years: 200 years + 200 years, minus 285 years, is not 115 years. -/
theorem C82_saturates : ∃ a b c, IsDur a ∧ IsDur b ∧ IsDur c ∧ IsDur (a + b - c) ∧
    (timeAdd2 a b).bind (fun s => timeSub2 s c) ≠ some (a + b - c) :=
  ⟨6311433600 * 1000000000, 6311433600 * 1000000000, 9000000000 * 1000000000, by unfold IsDur; decide, by unfold IsDur; decide, by unfold IsDur; decide,
    by unfold IsDur; decide, by decide⟩

/-- Exception: the begin of the year 1000 is neither: it cannot be subtracted from a time stamp. -/
theorem C82_y1k (t : Int) (ht : IsStamp t) : timeSub2 t y1k = none := by
  unfold timeSub2
  simp only [(stamp_y1k ht).1, (stamp_y1k ht).2, gt_iff_lt, Int.lt_irrefl, and_false, false_and, if_false]

example : IsStamp (goDate 2018 12 23 * nsDay) ∧ IsDur (12 * 1000000000) ∧ IsStamp (goDate 2018 12 23 * nsDay - 12 * 1000000000) := by
  unfold IsStamp IsDur; decide

end Iv

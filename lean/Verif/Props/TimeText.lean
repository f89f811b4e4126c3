import Verif.Model.TimeText
import Verif.Props.NumText
import Verif.Props.TimeRound
import Mathlib.Tactic.Positivity
import Mathlib.Tactic.IntervalCases
import Mathlib.Tactic.Ring
import Mathlib.Tactic.Linarith
import Mathlib.Data.List.Induction
/-
C90: time stamps as text and back.
-/
namespace Iv
variable {F : Type}

/- ## Specification -/

/-- the text is made of `w` decimal digits, and its value is `n` -/
def Num (w n : Nat) (s : List Char) : Prop := s.length = w ∧ (∀ c ∈ s, Digit c) ∧ decimal s = n

/-- `t` (nanoseconds since 0000.01.01) is this day of the calendar at this time of the day -/
def Instant (y : Int) (mo d h mi s ns : Nat) (t : Int) : Prop :=
  ∃ f, FirstOf y mo f ∧ 1 ≤ d ∧ (d : Int) ≤ daysIn y mo ∧ h < 24 ∧ mi < 60 ∧ s < 60 ∧ ns < 10 ^ 9 ∧
    t = (f + d - 1) * (86400 * 10 ^ 9) + (h * 3600 + mi * 60 + s) * 10 ^ 9 + ns

/-- Time stamps as they are written: `yyyy.mm.dd`, then nothing or `Thh.mm`, `Thh.mm.ss` or `Thh.mm.ss.` with a fraction.  The hour may have one digit.  Of
the fraction the digits after the ninth are cut. -/
inductive StampText : List Char → Int → Prop
  | date (Y M D : List Char) (y mo d : Nat) (t : Int) : Num 4 y Y → Num 2 mo M → Num 2 d D → Instant y mo d 0 0 0 0 t →
      StampText (Y ++ '.' :: M ++ '.' :: D) t
  | minutes (Y M D H I : List Char) (y mo d h mi : Nat) (t : Int) : Num 4 y Y → Num 2 mo M → Num 2 d D → Num 1 h H ∨ Num 2 h H → Num 2 mi I →
      Instant y mo d h mi 0 0 t → StampText (Y ++ '.' :: M ++ '.' :: D ++ 'T' :: H ++ '.' :: I) t
  | seconds (Y M D H I S : List Char) (y mo d h mi s : Nat) (t : Int) : Num 4 y Y → Num 2 mo M → Num 2 d D → Num 1 h H ∨ Num 2 h H → Num 2 mi I →
      Num 2 s S → Instant y mo d h mi s 0 t → StampText (Y ++ '.' :: M ++ '.' :: D ++ 'T' :: H ++ '.' :: I ++ '.' :: S) t
  | fraction (Y M D H I S F : List Char) (y mo d h mi s ns : Nat) (t : Int) : Num 4 y Y → Num 2 mo M → Num 2 d D → Num 1 h H ∨ Num 2 h H → Num 2 mi I →
      Num 2 s S → F ≠ [] → (∀ c ∈ F, Digit c) → ns * 10 ^ F.length ≤ decimal F * 10 ^ 9 → decimal F * 10 ^ 9 < (ns + 1) * 10 ^ F.length →
      Instant y mo d h mi s ns t →
      StampText (Y ++ '.' :: M ++ '.' :: D ++ 'T' :: H ++ '.' :: I ++ '.' :: S ++ '.' :: F) t

/- ## Proof -/

theorem num1 {n : Nat} {s : List Char} : Num 1 n s ↔ ∃ a, s = [a] ∧ isDec a = true ∧ n = decVal a := by
  constructor
  · rintro ⟨hl, hd, rfl⟩
    obtain ⟨a, rfl⟩ := List.length_eq_one_iff.1 hl
    exact ⟨a, rfl, (isDec_iff a).2 (hd a (by simp)), by simp [decimal, decVal]⟩
  · rintro ⟨a, rfl, h, rfl⟩
    exact ⟨rfl, fun c hc => by rw [List.mem_singleton.1 hc]; exact (isDec_iff a).1 h, by simp [decimal, decVal]⟩

theorem num2 {n : Nat} {s : List Char} : Num 2 n s ↔ ∃ a b, s = [a, b] ∧ isDec a = true ∧ isDec b = true ∧ n = decVal a * 10 + decVal b := by
  constructor
  · rintro ⟨hl, hd, rfl⟩
    obtain ⟨a, b, rfl⟩ := List.length_eq_two.1 hl
    exact ⟨a, b, rfl, (isDec_iff a).2 (hd a (by simp)), (isDec_iff b).2 (hd b (by simp)), by simp [decimal, decVal]; omega⟩
  · rintro ⟨a, b, rfl, h, h', rfl⟩
    refine ⟨rfl, fun c hc => ?_, by simp [decimal, decVal]; omega⟩
    simp only [List.mem_cons, List.not_mem_nil, or_false] at hc
    rcases hc with rfl | rfl
    · exact (isDec_iff _).1 h
    · exact (isDec_iff _).1 h'

theorem num4 {n : Nat} {s : List Char} : Num 4 n s ↔ ∃ a b c d, s = [a, b, c, d] ∧ isDec a = true ∧ isDec b = true ∧ isDec c = true ∧ isDec d = true ∧
    n = decVal a * 1000 + decVal b * 100 + decVal c * 10 + decVal d := by
  constructor
  · rintro ⟨hl, hd, rfl⟩
    match s, hl with
    | [a, b, c, d], _ =>
    exact ⟨a, b, c, d, rfl, (isDec_iff _).2 (hd a (by simp)), (isDec_iff _).2 (hd b (by simp)), (isDec_iff _).2 (hd c (by simp)), (isDec_iff _).2 (hd d (by simp)), by simp [decimal, decVal]; omega⟩
  · rintro ⟨a, b, c, d, rfl, h, h', h'', h''', rfl⟩
    refine ⟨rfl, fun c hc => ?_, by simp [decimal, decVal]; omega⟩
    simp only [List.mem_cons, List.not_mem_nil, or_false] at hc
    rcases hc with rfl | rfl | rfl | rfl <;> exact (isDec_iff _).1 ‹_›

theorem getyear_iff (cs r : List Char) (n : Nat) : getyear cs = some (n, r) ↔ ∃ Y, cs = Y ++ r ∧ Num 4 n Y := by
  constructor
  · intro h
    match cs with
    | a :: b :: c :: d :: cs =>
      simp only [getyear] at h
      split at h
      · rename_i hd
        simp only [Bool.and_eq_true] at hd
        simp only [Option.some.injEq, Prod.mk.injEq] at h
        exact ⟨[a, b, c, d], by rw [h.2]; rfl, num4.2 ⟨a, b, c, d, rfl, hd.1.1.1, hd.1.1.2, hd.1.2, hd.2, h.1.symm⟩⟩
      · exact absurd h (by simp)
    | [] => simp [getyear] at h
    | [_] => simp [getyear] at h
    | [_, _] => simp [getyear] at h
    | [_, _, _] => simp [getyear] at h
  · rintro ⟨Y, rfl, hY⟩
    obtain ⟨a, b, c, d, rfl, h1, h2, h3, h4, rfl⟩ := num4.1 hY
    simp [getyear, h1, h2, h3, h4]

theorem getnum_fixed (cs r : List Char) (n : Nat) : getnum true cs = some (n, r) ↔ ∃ Y, cs = Y ++ r ∧ Num 2 n Y := by
  constructor
  · intro h
    match cs with
    | [] => simp [getnum] at h
    | [a] => simp [getnum] at h
    | a :: b :: cs =>
      simp only [getnum, if_true] at h
      split at h
      · rename_i ha
        split at h
        · rename_i hb
          simp only [Option.some.injEq, Prod.mk.injEq] at h
          exact ⟨[a, b], by rw [h.2]; rfl, num2.2 ⟨a, b, rfl, ha, hb, h.1.symm⟩⟩
        · exact absurd h (by simp)
      · exact absurd h (by simp)
  · rintro ⟨Y, rfl, hY⟩
    obtain ⟨a, b, rfl, h1, h2, rfl⟩ := num2.1 hY
    simp [getnum, h1, h2]

theorem getnum_free (cs r : List Char) (n : Nat) :
    getnum false cs = some (n, r) ↔ ∃ Y, cs = Y ++ r ∧ (Num 2 n Y ∨ Num 1 n Y ∧ ∀ c, r.head? = some c → isDec c = false) := by
  constructor
  · intro h
    match cs with
    | [] => simp [getnum] at h
    | [a] =>
      simp only [getnum] at h
      split at h
      · rename_i ha
        simp at h
        exact ⟨[a], by rw [h.2]; rfl, .inr ⟨num1.2 ⟨a, rfl, ha, h.1.symm⟩, by rw [h.2]; simp⟩⟩
      · exact absurd h (by simp)
    | a :: b :: cs =>
      simp only [getnum] at h
      split at h
      · rename_i ha
        split at h
        · rename_i hb
          simp only [Option.some.injEq, Prod.mk.injEq] at h
          exact ⟨[a, b], by rw [h.2]; rfl, .inl (num2.2 ⟨a, b, rfl, ha, hb, h.1.symm⟩)⟩
        · rename_i hb
          simp at h
          exact ⟨[a], by rw [← h.2]; rfl, .inr ⟨num1.2 ⟨a, rfl, ha, h.1.symm⟩, by rw [← h.2]; intro c hc; simp at hc; rw [← hc]; simpa using hb⟩⟩
      · exact absurd h (by simp)
  · rintro ⟨Y, rfl, hY | ⟨hY, hr⟩⟩
    · obtain ⟨a, b, rfl, h1, h2, rfl⟩ := num2.1 hY
      simp [getnum, h1, h2]
    · obtain ⟨a, rfl, h1, rfl⟩ := num1.1 hY
      match r with
      | [] => simp [getnum, h1]
      | b :: r => simp [getnum, h1, hr b rfl]

theorem field_iff (r : Option (Nat × List Char)) (lo hi n : Nat) (cs : List Char) : field r lo hi = some (n, cs) ↔ r = some (n, cs) ∧ lo ≤ n ∧ n ≤ hi := by
  unfold field
  split
  · simp
  · rename_i m ds
    split
    · rename_i h
      constructor
      · intro e; simp at e; obtain ⟨rfl, rfl⟩ := e; exact ⟨rfl, h⟩
      · rintro ⟨e, _⟩; exact e
    · rename_i h
      constructor
      · simp
      · rintro ⟨e, h'⟩; simp at e; obtain ⟨rfl, rfl⟩ := e; exact absurd h' h

theorem fraction_iff (cs r : List Char) (ns : Nat) :
    fraction cs = some (ns, r) ↔ ∃ F, F ≠ [] ∧ (∀ c ∈ F, Digit c) ∧ cs = '.' :: (F ++ r) ∧ (∀ c, r.head? = some c → ¬ Digit c) ∧ ns = nanos F := by
  constructor
  · intro h
    unfold fraction at h
    split at h
    · rename_i c cs
      split at h
      · rename_i hc
        simp only [Option.some.injEq, Prod.mk.injEq] at h
        refine ⟨(c :: cs).takeWhile isDec, ?_, ?_, ?_, ?_, h.1.symm⟩
        · rw [List.takeWhile_cons_of_pos hc]; simp
        · intro d hd; exact (isDec_iff d).1 (takeWhile_mem _ _ _ hd)
        · rw [← h.2, List.takeWhile_append_dropWhile]
        · intro d hd
          rw [← h.2] at hd
          have := List.head?_dropWhile_not isDec (c :: cs)
          rw [hd] at this
          rw [← isDec_iff]; simpa using this
      · exact absurd h (by simp)
    · exact absurd h (by simp)
  · rintro ⟨F, hne, hF, rfl, hr, rfl⟩
    obtain ⟨c, G, rfl⟩ := List.exists_cons_of_ne_nil hne
    have hc : isDec c = true := (isDec_iff c).2 (hF c (by simp))
    obtain ⟨e1, e2⟩ := takeWhile_digits (c :: G) r hF hr
    rw [List.cons_append] at e1 e2 ⊢
    simp only [fraction, if_pos hc, e1, e2]

theorem items_nil (c c' : Clock) (cs : List Char) : parseItems c cs [] = some c' ↔ cs = [] ∧ c' = c := by
  unfold parseItems
  split
  · rename_i h; simp [h, eq_comm]
  · rename_i h; simp [h]

theorem items_cons (c c' : Clock) (cs : List Char) (i : LayoutItem) (is : List LayoutItem) :
    parseItems c cs (i :: is) = some c' ↔ ∃ c1 cs1, parseItem c cs i = some (c1, cs1) ∧ parseItems c1 cs1 is = some c' := by
  rw [parseItems]
  constructor
  · intro h
    split at h
    · exact absurd h (by simp)
    · exact ⟨_, _, ‹_›, h⟩
  · rintro ⟨c1, cs1, e, h⟩
    rw [e]; exact h

theorem map_some_iff {α β : Type} (r : Option (Nat × α)) (f : Nat → β) (b : β) (a : α) :
    r.map (fun p => (f p.1, p.2)) = some (b, a) ↔ ∃ n, r = some (n, a) ∧ b = f n := by
  cases r with
  | none => simp
  | some p =>
    obtain ⟨n, x⟩ := p
    simp only [Option.map_some, Option.some.injEq, Prod.mk.injEq]
    constructor
    · rintro ⟨rfl, rfl⟩; exact ⟨n, ⟨rfl, rfl⟩, rfl⟩
    · rintro ⟨m, ⟨rfl, rfl⟩, rfl⟩; exact ⟨rfl, rfl⟩

theorem item_year (c c' : Clock) (cs r : List Char) : parseItem c cs .year = some (c', r) ↔ ∃ Y n, cs = Y ++ r ∧ Num 4 n Y ∧ c' = { c with y := n } := by
  rw [parseItem]; refine (map_some_iff (getyear cs) (fun n => { c with y := n }) _ _).trans ?_
  simp only [getyear_iff]
  constructor
  · rintro ⟨n, ⟨Y, h1, h2⟩, h3⟩; exact ⟨Y, n, h1, h2, h3⟩
  · rintro ⟨Y, n, h1, h2, h3⟩; exact ⟨n, ⟨Y, h1, h2⟩, h3⟩

theorem item_month (c c' : Clock) (cs r : List Char) :
    parseItem c cs .month = some (c', r) ↔ ∃ Y n, cs = Y ++ r ∧ Num 2 n Y ∧ 1 ≤ n ∧ n ≤ 12 ∧ c' = { c with mo := n } := by
  rw [parseItem]; refine (map_some_iff (field (getnum true cs) 1 12) (fun n => { c with mo := n }) _ _).trans ?_
  simp only [field_iff, getnum_fixed]
  constructor
  · rintro ⟨n, ⟨⟨Y, h1, h2⟩, h4, h5⟩, h3⟩; exact ⟨Y, n, h1, h2, h4, h5, h3⟩
  · rintro ⟨Y, n, h1, h2, h4, h5, h3⟩; exact ⟨n, ⟨⟨Y, h1, h2⟩, h4, h5⟩, h3⟩

theorem item_day (c c' : Clock) (cs r : List Char) : parseItem c cs .day = some (c', r) ↔ ∃ Y n, cs = Y ++ r ∧ Num 2 n Y ∧ c' = { c with d := n } := by
  rw [parseItem]; refine (map_some_iff (getnum true cs) (fun n => { c with d := n }) _ _).trans ?_
  simp only [getnum_fixed]
  constructor
  · rintro ⟨n, ⟨Y, h1, h2⟩, h3⟩; exact ⟨Y, n, h1, h2, h3⟩
  · rintro ⟨Y, n, h1, h2, h3⟩; exact ⟨n, ⟨Y, h1, h2⟩, h3⟩

theorem item_hour (c c' : Clock) (cs r : List Char) :
    parseItem c cs .hour = some (c', r) ↔ ∃ Y n, cs = Y ++ r ∧ (Num 2 n Y ∨ Num 1 n Y ∧ ∀ c, r.head? = some c → isDec c = false) ∧ n ≤ 23 ∧ c' = { c with h := n } := by
  rw [parseItem]; refine (map_some_iff (field (getnum false cs) 0 23) (fun n => { c with h := n }) _ _).trans ?_
  simp only [field_iff, getnum_free]
  constructor
  · rintro ⟨n, ⟨⟨Y, h1, h2⟩, h4, h5⟩, h3⟩; exact ⟨Y, n, h1, h2, h5, h3⟩
  · rintro ⟨Y, n, h1, h2, h5, h3⟩; exact ⟨n, ⟨⟨Y, h1, h2⟩, Nat.zero_le _, h5⟩, h3⟩

theorem item_minute (c c' : Clock) (cs r : List Char) :
    parseItem c cs .minute = some (c', r) ↔ ∃ Y n, cs = Y ++ r ∧ Num 2 n Y ∧ n ≤ 59 ∧ c' = { c with mi := n } := by
  rw [parseItem]; refine (map_some_iff (field (getnum true cs) 0 59) (fun n => { c with mi := n }) _ _).trans ?_
  simp only [field_iff, getnum_fixed]
  constructor
  · rintro ⟨n, ⟨⟨Y, h1, h2⟩, h4, h5⟩, h3⟩; exact ⟨Y, n, h1, h2, h5, h3⟩
  · rintro ⟨Y, n, h1, h2, h5, h3⟩; exact ⟨n, ⟨⟨Y, h1, h2⟩, Nat.zero_le _, h5⟩, h3⟩

theorem item_second (c c' : Clock) (cs r : List Char) :
    parseItem c cs .second = some (c', r) ↔ ∃ Y n r1, cs = Y ++ r1 ∧ Num 2 n Y ∧ n ≤ 59 ∧
      ((∃ ns, fraction r1 = some (ns, r) ∧ c' = { c with s := n, ns := ns }) ∨ (fraction r1 = none ∧ r1 = r ∧ c' = { c with s := n })) := by
  rw [parseItem]
  constructor
  · intro h
    cases e : field (getnum true cs) 0 59 with
    | none => rw [e] at h; exact absurd h (by simp [withFraction])
    | some p =>
      obtain ⟨n, r1⟩ := p
      rw [e] at h
      obtain ⟨h1, -, h2⟩ := (field_iff _ _ _ _ _).1 e
      obtain ⟨Y, h3, h4⟩ := (getnum_fixed _ _ _).1 h1
      refine ⟨Y, n, r1, h3, h4, h2, ?_⟩
      simp only [withFraction] at h
      cases e2 : fraction r1 with
      | none => rw [e2] at h; simp at h; exact .inr ⟨rfl, h.2, h.1.symm⟩
      | some q => rw [e2] at h; simp at h; exact .inl ⟨q.1, by rw [← h.2], h.1.symm⟩
  · rintro ⟨Y, n, r1, h1, h2, h3, h⟩
    rw [(field_iff _ _ _ _ _).2 ⟨(getnum_fixed _ _ _).2 ⟨Y, h1, h2⟩, Nat.zero_le _, h3⟩]
    rcases h with ⟨ns, h4, rfl⟩ | ⟨h4, rfl, rfl⟩ <;> simp [withFraction, h4]

theorem item_lit (c c' : Clock) (cs r : List Char) (x : Char) : parseItem c cs (.lit x) = some (c', r) ↔ cs = x :: r ∧ c' = c := by
  cases cs with
  | nil => simp [parseItem]
  | cons y ys =>
    by_cases h : y = x
    · simp [parseItem, h, eq_comm, and_comm]
    · simp [parseItem, h]

/-- the date of a layout, and the rest -/
theorem items_date (s : List Char) (is : List LayoutItem) (c : Clock) :
    parseItems {} s ([.year, .lit '.', .month, .lit '.', .day] ++ is) = some c ↔ ∃ Y M D r y mo d, s = Y ++ '.' :: M ++ '.' :: D ++ r ∧ Num 4 y Y ∧ Num 2 mo M ∧ Num 2 d D ∧
      1 ≤ mo ∧ mo ≤ 12 ∧ parseItems { y := y, mo := mo, d := d } r is = some c := by
  simp only [List.cons_append, List.nil_append, items_cons, item_year, item_lit, item_month, item_day]
  constructor
  · rintro ⟨c1, r1, ⟨Y, y, rfl, hY, rfl⟩, c2, r2, ⟨rfl, rfl⟩, c3, r3, ⟨M, mo, rfl, hM, h1, h2, rfl⟩, c4, r4, ⟨rfl, rfl⟩, c5, r5, ⟨D, d, rfl, hD, rfl⟩, h⟩
    exact ⟨Y, M, D, r5, y, mo, d, by simp, hY, hM, hD, h1, h2, h⟩
  · rintro ⟨Y, M, D, r, y, mo, d, rfl, hY, hM, hD, h1, h2, h⟩
    exact ⟨_, _, ⟨Y, y, by simp only [List.append_assoc]; rfl, hY, rfl⟩, _, _, ⟨rfl, rfl⟩, _, _, ⟨M, mo, rfl, hM, h1, h2, rfl⟩, _, _, ⟨rfl, rfl⟩, _, _, ⟨D, d, rfl, hD, rfl⟩, h⟩

/-- the hour and the minute, and the rest -/
theorem items_minutes (c c' : Clock) (s : List Char) (is : List LayoutItem) :
    parseItems c s ([.lit 'T', .hour, .lit '.', .minute] ++ is) = some c' ↔ ∃ H I r h mi, s = 'T' :: H ++ '.' :: I ++ r ∧ (Num 1 h H ∨ Num 2 h H) ∧ Num 2 mi I ∧
      h ≤ 23 ∧ mi ≤ 59 ∧ parseItems { c with h := h, mi := mi } r is = some c' := by
  simp only [List.cons_append, List.nil_append, items_cons, item_lit, item_hour, item_minute]
  constructor
  · rintro ⟨c1, r1, ⟨rfl, rfl⟩, c2, r2, ⟨H, h, rfl, hH, h1, rfl⟩, c3, r3, ⟨rfl, rfl⟩, c4, r4, ⟨I, mi, rfl, hI, h2, rfl⟩, h⟩
    exact ⟨H, I, _, _, mi, by simp, hH.symm.imp And.left id, hI, h1, h2, h⟩
  · rintro ⟨H, I, r, h, mi, rfl, hH, hI, h1, h2, hh⟩
    refine ⟨_, _, ⟨rfl, rfl⟩, _, _, ⟨H, h, by simp only [List.append_assoc]; rfl, hH.symm.imp id (fun h => ⟨h, ?_⟩), h1, rfl⟩, _, _, ⟨rfl, rfl⟩, _, _, ⟨I, mi, rfl, hI, h2, rfl⟩, hh⟩
    intro c hc; simp at hc; rw [← hc]; decide

theorem items_seconds (c c' : Clock) (s : List Char) :
    parseItems c s [.lit '.', .second] = some c' ↔ ∃ S n, Num 2 n S ∧ n ≤ 59 ∧ ((s = '.' :: S ∧ c' = { c with s := n }) ∨
      (∃ F, F ≠ [] ∧ (∀ d ∈ F, Digit d) ∧ s = '.' :: S ++ '.' :: F ∧ c' = { c with s := n, ns := nanos F })) := by
  simp only [items_cons, items_nil, item_lit, item_second]
  constructor
  · rintro ⟨c1, r1, ⟨rfl, rfl⟩, c2, r2, ⟨S, n, r3, rfl, hS, hn, h⟩, rfl, rfl⟩
    refine ⟨S, n, hS, hn, ?_⟩
    rcases h with ⟨ns, h, rfl⟩ | ⟨h, rfl, rfl⟩
    · obtain ⟨F, h1, h2, rfl, h3, rfl⟩ := (fraction_iff _ _ _).1 h
      exact .inr ⟨F, h1, h2, by simp, rfl⟩
    · exact .inl ⟨by simp, rfl⟩
  · rintro ⟨S, n, hS, hn, ⟨rfl, rfl⟩ | ⟨F, h1, h2, rfl, rfl⟩⟩
    · exact ⟨_, _, ⟨rfl, rfl⟩, _, _, ⟨S, n, [], by simp, hS, hn, .inr ⟨rfl, rfl, rfl⟩⟩, rfl, rfl⟩
    · exact ⟨_, _, ⟨rfl, rfl⟩, _, [], ⟨S, n, '.' :: F, rfl, hS, hn, .inl ⟨nanos F, (fraction_iff _ _ _).2 ⟨F, h1, h2, by simp, by simp, rfl⟩, rfl⟩⟩, rfl, rfl⟩

theorem digitsNat_eq (ds : List Char) : digitsNat ds = decimal ds := by
  unfold digitsNat decimal
  congr 1
  funext v c
  simp only [decVal]; omega

theorem decimal_append (a b : List Char) : decimal (a ++ b) = decimal a * 10 ^ b.length + decimal b := by
  have : ∀ (b : List Char) v, List.foldl (fun v c => 10 * v + (c.toNat - '0'.toNat)) v b = v * 10 ^ b.length + decimal b := by
    intro b
    induction b with
    | nil => intro v; simp [decimal]
    | cons c b ih =>
      intro v
      rw [decimal, List.foldl_cons, List.foldl_cons, ih, ih]
      simp only [List.length_cons, pow_succ]
      ring
  rw [decimal, List.foldl_append, this]; rfl

theorem decimal_lt (ds : List Char) (h : ∀ c ∈ ds, Digit c) : decimal ds < 10 ^ ds.length := by
  induction ds using List.reverseRecOn with
  | nil => simp [decimal]
  | append_singleton a c ih =>
    rw [decimal_append, List.length_append]
    have h1 := ih (fun d hd => h d (by simp [hd]))
    have h2 := digit_range (h c (by simp))
    have h3 : decimal [c] < 10 := by
      simp only [decimal, List.foldl_cons, List.foldl_nil]
      have : '0'.toNat = 48 := rfl
      omega
    simp only [List.length_singleton, pow_succ, pow_zero]
    omega

theorem nanos_iff (F : List Char) (hF : ∀ c ∈ F, Digit c) (ns : Nat) :
    ns = nanos F ↔ ns * 10 ^ F.length ≤ decimal F * 10 ^ 9 ∧ decimal F * 10 ^ 9 < (ns + 1) * 10 ^ F.length := by
  have key : nanos F * 10 ^ F.length ≤ decimal F * 10 ^ 9 ∧ decimal F * 10 ^ 9 < (nanos F + 1) * 10 ^ F.length := by
    rw [nanos, digitsNat_eq]
    by_cases h : F.length ≤ 9
    · rw [List.take_of_length_le h, Nat.mul_assoc, ← pow_add, Nat.sub_add_cancel h, Nat.add_mul, Nat.mul_assoc, ← pow_add, Nat.sub_add_cancel h]
      exact ⟨Nat.le_refl _, by have : 0 < 10 ^ F.length := by positivity
                               omega⟩
    · have hl : (F.take 9).length = 9 := by simp; omega
      have e : decimal F = decimal (F.take 9) * 10 ^ (F.length - 9) + decimal (F.drop 9) := by
        conv => lhs; rw [← List.take_append_drop 9 F]
        rw [decimal_append, List.length_drop]
      have hlt := decimal_lt (F.drop 9) (fun c hc => hF c (List.mem_of_mem_drop hc))
      rw [List.length_drop] at hlt
      have e2 : 10 ^ F.length = 10 ^ (F.length - 9) * 10 ^ 9 := by rw [← pow_add]; congr 1; omega
      rw [hl, Nat.sub_self, pow_zero, Nat.mul_one, e, e2]
      generalize decimal (F.take 9) = a at *
      generalize decimal (F.drop 9) = b at *
      generalize (10:Nat) ^ (F.length - 9) = p at *
      constructor
      · nlinarith
      · nlinarith
  constructor
  · rintro rfl; exact key
  · rintro ⟨h1, h2⟩
    have hp : 0 < 10 ^ F.length := by positivity
    have a1 : nanos F < ns + 1 := Nat.lt_of_mul_lt_mul_right (lt_of_le_of_lt key.1 h2)
    have a2 : ns < nanos F + 1 := Nat.lt_of_mul_lt_mul_right (lt_of_le_of_lt h1 key.2)
    omega

theorem nanos_lt (F : List Char) (hF : ∀ c ∈ F, Digit c) : nanos F < 10 ^ 9 := by
  have := ((nanos_iff F hF _).1 rfl).1
  have h2 := decimal_lt F hF
  by_contra hc
  have : 10 ^ 9 * 10 ^ F.length ≤ nanos F * 10 ^ F.length := Nat.mul_le_mul_right _ (by omega)
  have : decimal F * 10 ^ 9 < 10 ^ F.length * 10 ^ 9 := Nat.mul_lt_mul_of_pos_right h2 (by positivity)
  omega

theorem goDaysIn_eq (y mo : Nat) (h1 : 1 ≤ mo) (h2 : mo ≤ 12) : (goDaysIn y mo : Int) = daysIn y mo := by
  unfold goDaysIn
  by_cases h : Leap (y : Int)
  · rw [(isLeap_iff _).2 h]
    interval_cases mo <;> simp [daysIn, h]
  · have : isLeap (y : Int) = false := by cases e : isLeap (y : Int); rfl; exact absurd ((isLeap_iff _).1 e) h
    rw [this]
    interval_cases mo <;> simp [daysIn, h]

theorem clockTime_iff (c : Clock) (t : Int) (h1 : 1 ≤ c.mo) (h2 : c.mo ≤ 12) (hh : c.h ≤ 23) (hm : c.mi ≤ 59) (hs : c.s ≤ 59) (hn : c.ns < 10 ^ 9) :
    clockTime c = some t ↔ Instant c.y c.mo c.d c.h c.mi c.s c.ns t := by
  have hd := goDaysIn_eq c.y c.mo h1 h2
  unfold clockTime Instant
  rw [goDate_eq _ _ _ h1 h2]
  constructor
  · intro h
    split at h
    · exact absurd h (by simp)
    · rename_i hc
      simp only [Option.some.injEq] at h
      refine ⟨jan1 c.y + before c.y c.mo, (firstOf_iff _ _ _).2 ⟨h1, h2, rfl⟩, by omega, by omega, by omega, by omega, by omega, hn, ?_⟩
      rw [← h, nsDay]; push_cast; ring
  · rintro ⟨f, hf, a1, a2, -, -, -, -, rfl⟩
    obtain ⟨-, -, rfl⟩ := (firstOf_iff _ _ _).1 hf
    rw [if_neg (by omega)]
    rw [nsDay]; push_cast; congr 1; ring

theorem layout_date (s : List Char) (t : Int) :
    goTimeParse [.year, .lit '.', .month, .lit '.', .day] s = some t ↔ ∃ Y M D y mo d, s = Y ++ '.' :: M ++ '.' :: D ∧ Num 4 y Y ∧ Num 2 mo M ∧ Num 2 d D ∧
      Instant y mo d 0 0 0 0 t := by
  rw [goTimeParse, Option.bind_eq_some_iff]
  have := items_date s []
  rw [List.append_nil] at this
  simp only [this, items_nil]
  constructor
  · rintro ⟨c, ⟨Y, M, D, r, y, mo, d, rfl, hY, hM, hD, h1, h2, rfl, rfl⟩, h⟩
    rw [clockTime_iff _ _ h1 h2 (by simp) (by simp) (by simp) (by simp)] at h
    exact ⟨Y, M, D, y, mo, d, by simp, hY, hM, hD, h⟩
  · rintro ⟨Y, M, D, y, mo, d, rfl, hY, hM, hD, h⟩
    have hh := h
    obtain ⟨f, hf, -⟩ := hh
    obtain ⟨h1, h2, -⟩ := (firstOf_iff _ _ _).1 hf
    exact ⟨_, ⟨Y, M, D, [], y, mo, d, by simp, hY, hM, hD, h1, h2, rfl, rfl⟩, (clockTime_iff _ _ h1 h2 (by simp) (by simp) (by simp) (by simp)).2 h⟩

theorem layout_minutes (s : List Char) (t : Int) :
    goTimeParse [.year, .lit '.', .month, .lit '.', .day, .lit 'T', .hour, .lit '.', .minute] s = some t ↔ ∃ Y M D H I y mo d h mi,
      s = Y ++ '.' :: M ++ '.' :: D ++ 'T' :: H ++ '.' :: I ∧ Num 4 y Y ∧ Num 2 mo M ∧ Num 2 d D ∧ (Num 1 h H ∨ Num 2 h H) ∧ Num 2 mi I ∧ Instant y mo d h mi 0 0 t := by
  rw [goTimeParse, Option.bind_eq_some_iff]
  have e1 := items_date s [.lit 'T', .hour, .lit '.', .minute]
  have e2 := fun c c' r => items_minutes c c' r []
  rw [List.append_nil] at e2
  simp only [List.cons_append, List.nil_append] at e1
  simp only [e1, e2, items_nil]
  constructor
  · rintro ⟨c, ⟨Y, M, D, r, y, mo, d, rfl, hY, hM, hD, h1, h2, H, I, r', h, mi, rfl, hH, hI, h3, h4, rfl, rfl⟩, hc⟩
    rw [clockTime_iff _ _ h1 h2 h3 h4 (by simp) (by simp)] at hc
    exact ⟨Y, M, D, H, I, y, mo, d, h, mi, by simp, hY, hM, hD, hH, hI, hc⟩
  · rintro ⟨Y, M, D, H, I, y, mo, d, h, mi, rfl, hY, hM, hD, hH, hI, hi⟩
    have hh := hi
    obtain ⟨f, hf, -, -, h3, h4, -⟩ := hh
    obtain ⟨h1, h2, -⟩ := (firstOf_iff _ _ _).1 hf
    exact ⟨_, ⟨Y, M, D, _, y, mo, d, by simp only [List.append_assoc]; rfl, hY, hM, hD, h1, h2, H, I, [], h, mi, by simp, hH, hI, by omega, by omega, rfl, rfl⟩,
      (clockTime_iff _ _ h1 h2 (by simp; omega) (by simp; omega) (by simp) (by simp)).2 hi⟩

theorem layout_seconds (s : List Char) (t : Int) :
    goTimeParse [.year, .lit '.', .month, .lit '.', .day, .lit 'T', .hour, .lit '.', .minute, .lit '.', .second] s = some t ↔ ∃ Y M D H I S y mo d h mi se,
      Num 4 y Y ∧ Num 2 mo M ∧ Num 2 d D ∧ (Num 1 h H ∨ Num 2 h H) ∧ Num 2 mi I ∧ Num 2 se S ∧
      ((s = Y ++ '.' :: M ++ '.' :: D ++ 'T' :: H ++ '.' :: I ++ '.' :: S ∧ Instant y mo d h mi se 0 t) ∨
       ∃ F ns, F ≠ [] ∧ (∀ c ∈ F, Digit c) ∧ ns * 10 ^ F.length ≤ decimal F * 10 ^ 9 ∧ decimal F * 10 ^ 9 < (ns + 1) * 10 ^ F.length ∧
         s = Y ++ '.' :: M ++ '.' :: D ++ 'T' :: H ++ '.' :: I ++ '.' :: S ++ '.' :: F ∧ Instant y mo d h mi se ns t) := by
  rw [goTimeParse, Option.bind_eq_some_iff]
  have e1 := items_date s [.lit 'T', .hour, .lit '.', .minute, .lit '.', .second]
  have e2 := fun c c' r => items_minutes c c' r [.lit '.', .second]
  simp only [List.cons_append, List.nil_append] at e1 e2
  simp only [e1, e2, items_seconds]
  constructor
  · rintro ⟨c, ⟨Y, M, D, r, y, mo, d, rfl, hY, hM, hD, h1, h2, H, I, r', h, mi, rfl, hH, hI, h3, h4, S, se, hS, h5, hs⟩, hc⟩
    refine ⟨Y, M, D, H, I, S, y, mo, d, h, mi, se, hY, hM, hD, hH, hI, hS, ?_⟩
    rcases hs with ⟨rfl, rfl⟩ | ⟨F, hF, hFd, rfl, rfl⟩
    · rw [clockTime_iff _ _ h1 h2 h3 h4 h5 (by simp)] at hc
      exact .inl ⟨by simp, hc⟩
    · have hn := nanos_lt F hFd
      rw [clockTime_iff _ _ h1 h2 h3 h4 h5 hn] at hc
      obtain ⟨a, b⟩ := (nanos_iff F hFd _).1 rfl
      exact .inr ⟨F, nanos F, hF, hFd, a, b, by simp, hc⟩
  · rintro ⟨Y, M, D, H, I, S, y, mo, d, h, mi, se, hY, hM, hD, hH, hI, hS, hs⟩
    have hh : ∃ n, Instant y mo d h mi se n t := by
      rcases hs with ⟨-, hs⟩ | ⟨_, ns, -, -, -, -, -, hs⟩
      · exact ⟨_, hs⟩
      · exact ⟨ns, hs⟩
    obtain ⟨n, f, hf, -, -, h3, h4, h5, -⟩ := hh
    obtain ⟨h1, h2, -⟩ := (firstOf_iff _ _ _).1 hf
    rcases hs with ⟨rfl, hi⟩ | ⟨F, ns, hF, hFd, a, b, rfl, hi⟩
    · exact ⟨_, ⟨Y, M, D, _, y, mo, d, by simp only [List.append_assoc]; rfl, hY, hM, hD, h1, h2, H, I, '.' :: S, h, mi, by simp, hH, hI, by omega, by omega,
        S, se, hS, by omega, .inl ⟨rfl, rfl⟩⟩, (clockTime_iff _ _ h1 h2 (by simp; omega) (by simp; omega) (by simp; omega) (by simp)).2 hi⟩
    · have e := (nanos_iff F hFd ns).2 ⟨a, b⟩
      subst e
      exact ⟨_, ⟨Y, M, D, _, y, mo, d, by simp only [List.append_assoc]; rfl, hY, hM, hD, h1, h2, H, I, '.' :: S ++ '.' :: F, h, mi, by simp, hH, hI, by omega, by omega,
        S, se, hS, by omega, .inr ⟨F, hF, hFd, rfl, rfl⟩⟩, (clockTime_iff _ _ h1 h2 (by simp; omega) (by simp; omega) (by simp; omega) (nanos_lt F hFd)).2 hi⟩

/-- The layouts fit the time stamps of the specification, and nothing else. -/
theorem layouts_iff (s : List Char) (t : Int) : parseLayouts s layouts = some t ↔ StampText s t := by
  have l1 := layout_date s
  have l2 := layout_minutes s
  have l3 := layout_seconds s
  have key : parseLayouts s layouts = ((goTimeParse [.year, .lit '.', .month, .lit '.', .day] s).or
      ((goTimeParse [.year, .lit '.', .month, .lit '.', .day, .lit 'T', .hour, .lit '.', .minute] s).or
      (goTimeParse [.year, .lit '.', .month, .lit '.', .day, .lit 'T', .hour, .lit '.', .minute, .lit '.', .second] s))) := by
    simp only [layouts, parseLayouts, List.cons_append, List.nil_append]
    generalize goTimeParse [.year, .lit '.', .month, .lit '.', .day] s = a
    generalize goTimeParse [.year, .lit '.', .month, .lit '.', .day, .lit 'T', .hour, .lit '.', .minute] s = b
    generalize goTimeParse [.year, .lit '.', .month, .lit '.', .day, .lit 'T', .hour, .lit '.', .minute, .lit '.', .second] s = c
    cases a <;> cases b <;> cases c <;> rfl
  rw [key]
  generalize goTimeParse [.year, .lit '.', .month, .lit '.', .day] s = a at *
  generalize goTimeParse [.year, .lit '.', .month, .lit '.', .day, .lit 'T', .hour, .lit '.', .minute] s = b at *
  generalize goTimeParse [.year, .lit '.', .month, .lit '.', .day, .lit 'T', .hour, .lit '.', .minute, .lit '.', .second] s = c at *
  have g1 : ∀ t, a = some t → s.length = 10 := by
    intro t h
    obtain ⟨Y, M, D, y, mo, d, rfl, hY, hM, hD, -⟩ := (l1 t).1 h
    simp [hY.1, hM.1, hD.1]
  have g2 : ∀ t, b = some t → s.length = 15 ∨ s.length = 16 := by
    intro t h
    obtain ⟨Y, M, D, H, I, y, mo, d, h, mi, rfl, hY, hM, hD, hH, hI, -⟩ := (l2 t).1 h
    rcases hH with hH | hH <;> simp [hY.1, hM.1, hD.1, hH.1, hI.1]
  have g3 : ∀ t, c = some t → s.length ≥ 18 := by
    intro t h
    obtain ⟨Y, M, D, H, I, S, y, mo, d, h, mi, se, hY, hM, hD, hH, hI, hS, ⟨rfl, -⟩ | ⟨F, ns, -, -, -, -, rfl, -⟩⟩ := (l3 t).1 h
    · rcases hH with hH | hH <;> simp [hY.1, hM.1, hD.1, hH.1, hI.1, hS.1]
    · rcases hH with hH | hH <;> simp [hY.1, hM.1, hD.1, hH.1, hI.1, hS.1] <;> omega
  have or1 : a.or (b.or c) = some t ↔ a = some t ∨ b = some t ∨ c = some t := by
    cases a with
    | some u =>
      have hl := g1 u rfl
      simp only [Option.some_or]
      constructor
      · exact .inl
      · rintro (h | h | h)
        · exact h
        · have := g2 t h; omega
        · have := g3 t h; omega
    | none =>
      cases b with
      | some u =>
        have hl := g2 u rfl
        simp only [Option.none_or, Option.some_or]
        constructor
        · exact fun h => .inr (.inl h)
        · rintro (h | h | h)
          · exact absurd h (by simp)
          · exact h
          · have := g3 t h; omega
      | none => simp
  rw [or1, l1, l2, l3]
  constructor
  · rintro (⟨Y, M, D, y, mo, d, rfl, hY, hM, hD, hi⟩ | ⟨Y, M, D, H, I, y, mo, d, h, mi, rfl, hY, hM, hD, hH, hI, hi⟩ |
      ⟨Y, M, D, H, I, S, y, mo, d, h, mi, se, hY, hM, hD, hH, hI, hS, ⟨rfl, hi⟩ | ⟨F, ns, hF, hFd, a, b, rfl, hi⟩⟩)
    · exact .date Y M D y mo d t hY hM hD hi
    · exact .minutes Y M D H I y mo d h mi t hY hM hD hH hI hi
    · exact .seconds Y M D H I S y mo d h mi se t hY hM hD hH hI hS hi
    · exact .fraction Y M D H I S F y mo d h mi se ns t hY hM hD hH hI hS hF hFd a b hi
  · intro h
    cases h with
    | date Y M D y mo d _ hY hM hD hi => exact .inl ⟨Y, M, D, y, mo, d, rfl, hY, hM, hD, hi⟩
    | minutes Y M D H I y mo d h mi _ hY hM hD hH hI hi => exact .inr (.inl ⟨Y, M, D, H, I, y, mo, d, h, mi, rfl, hY, hM, hD, hH, hI, hi⟩)
    | seconds Y M D H I S y mo d h mi se _ hY hM hD hH hI hS hi => exact .inr (.inr ⟨Y, M, D, H, I, S, y, mo, d, h, mi, se, hY, hM, hD, hH, hI, hS, .inl ⟨rfl, hi⟩⟩)
    | fraction Y M D H I S F y mo d h mi se ns _ hY hM hD hH hI hS hF hFd a b hi =>
      exact .inr (.inr ⟨Y, M, D, H, I, S, y, mo, d, h, mi, se, hY, hM, hD, hH, hI, hS, .inr ⟨F, ns, hF, hFd, a, b, rfl, hi⟩⟩)

theorem num_chars {w n : Nat} {s : List Char} (h : Num w n s) : ∀ c ∈ s, Digit c ∨ c = '.' ∨ c = 'T' := fun c hc => .inl (h.2.1 c hc)

theorem dotted {a b : List Char} (x : Char) (hx : x = '.' ∨ x = 'T') (ha : ∀ c ∈ a, Digit c ∨ c = '.' ∨ c = 'T') (hb : ∀ c ∈ b, Digit c ∨ c = '.' ∨ c = 'T') :
    ∀ c ∈ a ++ x :: b, Digit c ∨ c = '.' ∨ c = 'T' := by
  intro c hc
  rcases List.mem_append.1 hc with h | h
  · exact ha c h
  · rcases List.mem_cons.1 h with rfl | h
    · exact .inr hx
    · exact hb c h

theorem num1or2 {h : Nat} {H : List Char} (hH : Num 1 h H ∨ Num 2 h H) : ∀ c ∈ H, Digit c ∨ c = '.' ∨ c = 'T' := hH.elim num_chars num_chars

/-- the characters of a time stamp -/
theorem stamp_chars {s : List Char} {t : Int} (h : StampText s t) : ∀ c ∈ s, Digit c ∨ c = '.' ∨ c = 'T' := by
  cases h with
  | date Y M D y mo d _ hY hM hD hi => exact dotted _ (.inl rfl) (dotted _ (.inl rfl) (num_chars hY) (num_chars hM)) (num_chars hD)
  | minutes Y M D H I y mo d h mi _ hY hM hD hH hI hi =>
    exact dotted _ (.inl rfl) (dotted _ (.inr rfl) (dotted _ (.inl rfl) (dotted _ (.inl rfl) (num_chars hY) (num_chars hM)) (num_chars hD)) (num1or2 hH)) (num_chars hI)
  | seconds Y M D H I S y mo d h mi se _ hY hM hD hH hI hS hi =>
    exact dotted _ (.inl rfl) (dotted _ (.inl rfl) (dotted _ (.inr rfl) (dotted _ (.inl rfl) (dotted _ (.inl rfl) (num_chars hY) (num_chars hM)) (num_chars hD)) (num1or2 hH)) (num_chars hI)) (num_chars hS)
  | fraction Y M D H I S F y mo d h mi se ns _ hY hM hD hH hI hS hF hFd a b hi =>
    exact dotted _ (.inl rfl) (dotted _ (.inl rfl) (dotted _ (.inl rfl) (dotted _ (.inr rfl) (dotted _ (.inl rfl) (dotted _ (.inl rfl) (num_chars hY) (num_chars hM)) (num_chars hD)) (num1or2 hH)) (num_chars hI)) (num_chars hS)) (fun c hc => .inl (hFd c hc))

theorem stamp_low {s : List Char} {t : Int} (h : StampText s t) : lowMinusAll s = s := by
  refine unhigh_none s (fun c hc => ?_)
  rcases stamp_chars h c hc with h | rfl | rfl
  · exact (digit_ne h).2.2.1
  · decide
  · decide

/-- a text with two dots is no floating point number -/
theorem date_not_float (env : FloatEnv F) (Y M D : List Char) (hY : ∀ c ∈ Y, Digit c) (hM : ∀ c ∈ M, Digit c) (hD : ∀ c ∈ D, Digit c) (hy : Y ≠ []) (hd : D ≠ []) :
    parseFloat env (Y ++ '.' :: M ++ '.' :: D) = none := by
  have hlow : lowMinusAll (Y ++ '.' :: M ++ '.' :: D) = Y ++ '.' :: (M ++ '.' :: D) := by
    rw [lowMinus_append, lowMinus_append, lowMinus_digits Y hY]
    have e : ∀ X : List Char, (∀ c ∈ X, Digit c) → lowMinusAll ('.' :: X) = '.' :: X := fun X hX => by
      rw [lowMinusAll, List.map_cons, if_neg (by decide)]; exact congrArg _ (lowMinus_digits X hX)
    rw [e M hM, e D hD]; simp
  rw [parseFloat, hlow, trimDot_of]
  · obtain ⟨a, Y, rfl⟩ := List.exists_cons_of_ne_nil hy
    have ha := hY a (by simp)
    rw [goParseFloat, special_digit env _ a (by simp) ha]
    simp only
    have hdec : decimalSyntax (a :: Y ++ '.' :: (M ++ '.' :: D)) = none := by
      obtain ⟨e1, e2⟩ := takeWhile_digits (a :: Y) ('.' :: (M ++ '.' :: D)) hY (by intro c hc; simp at hc; subst hc; unfold Digit; decide)
      obtain ⟨e3, e4⟩ := takeWhile_digits M ('.' :: D) hM (by intro c hc; simp at hc; subst hc; unfold Digit; decide)
      rw [decimalSyntax, e1, e2, decimalRest, e3, e4, decimalOf]
      have : scanExp ('.' :: D) = none := rfl
      rw [this]
      cases digits1 (a :: Y ++ M) <;> rfl
    unfold readDecimal
    split
    · rename_i e; simp at e; exact absurd e.1 (digit_ne ha).1
    · rename_i e; simp at e; exact absurd e.1 (digit_ne ha).2.1
    · rw [hdec]; rfl
  · intro h
    rw [List.getLast?_append, List.getLast?_cons, List.getLast?_append, List.getLast?_cons_of_ne_nil hd] at h
    have hl : D.getLast? ≠ none := by simpa using hd
    cases e : D.getLast? with
    | none => exact hl e
    | some x =>
      rw [e] at h; simp at h
      exact (digit_ne (hD x (List.mem_of_getLast? e))).2.2.2.2.2.1 h

theorem stamp_not_float (env : FloatEnv F) {s : List Char} {t : Int} (h : StampText s t) : parseFloat env s = none := by
  have ht : 'T' ∈ s → parseFloat env s = none := by
    intro hT
    have : ∃ d ∈ s, Digit d := by
      have : ∀ (n : Nat) (Y r : List Char), Num 4 n Y → ∃ d ∈ Y ++ r, Digit d := by
        intro n Y r hY
        obtain ⟨a, b, c, d, rfl, h1, -⟩ := num4.1 hY
        exact ⟨a, by simp, (isDec_iff a).1 h1⟩
      cases h with
      | date Y M D y mo d _ hY => simp only [List.append_assoc]; exact this _ Y _ hY
      | minutes Y M D H I y mo d h mi _ hY => simp only [List.append_assoc]; exact this _ Y _ hY
      | seconds Y M D H I S y mo d h mi se _ hY => simp only [List.append_assoc]; exact this _ Y _ hY
      | fraction Y M D H I S F y mo d h mi se ns _ hY => simp only [List.append_assoc]; exact this _ Y _ hY
    obtain ⟨d, hd, hdd⟩ := this
    exact parseFloat_bad env s 'T' d hT (by unfold Digit; decide) (by decide) hd hdd
  cases h with
  | date Y M D y mo d _ hY hM hD hi =>
    exact date_not_float env Y M D hY.2.1 hM.2.1 hD.2.1 (by rintro rfl; exact absurd hY.1 (by simp)) (by rintro rfl; exact absurd hD.1 (by simp))
  | minutes Y M D H I y mo d h mi _ hY => exact ht (by simp)
  | seconds Y M D H I S y mo d h mi se _ hY => exact ht (by simp)
  | fraction Y M D H I S F y mo d h mi se ns _ hY => exact ht (by simp)

theorem stamp_dot {s : List Char} {t : Int} (h : StampText s t) : '.' ∈ s := by cases h <;> simp

theorem natText_length (n w : Nat) (hw : 0 < w) (h : n < 10 ^ w) : (natText false 10 n).length ≤ w := by
  refine natText_rec false 10 (by decide) (fun u t => ∀ w, 0 < w → u < 10 ^ w → t.length ≤ w) ?_ ?_ n w hw h
  · intro u hu w hw _; simp; omega
  · intro u hu ih w hw h
    have hw2 : 1 < w := by
      by_contra hc
      have : w = 1 := by omega
      subst this; simp at h; omega
    obtain ⟨v, rfl⟩ : ∃ v, w = v + 1 := ⟨w - 1, by omega⟩
    have := ih v (by omega) (by rw [pow_succ] at h; omega)
    simp; omega

theorem decimal_natText (u : Nat) : decimal (natText false 10 u) = u := by
  have h1 := digits1_decimal (natText false 10 u) (natText_ne false 10 (by decide) (by decide) u) (natText_plain u)
  rw [digits1_natText] at h1
  injection h1 with h1; exact h1.symm

theorem padInt_num (w n : Nat) (hw : 0 < w) (h : n < 10 ^ w) : Num w n (padInt w n) := by
  have hl := natText_length n w hw h
  refine ⟨by simp [padInt]; omega, ?_, ?_⟩
  · intro c hc
    rcases List.mem_append.1 hc with h | h
    · rw [(List.mem_replicate.1 h).2]; unfold Digit; decide
    · exact natText_plain n c h
  · rw [padInt, decimal_append, decimal_natText]
    have : ∀ k, decimal (List.replicate k '0') = 0 := by
      intro k
      induction k with
      | zero => rfl
      | succ k ih => rw [List.replicate_succ', decimal_append, ih]; decide
    rw [this]; simp

theorem padInt_large (w n : Nat) (h : w ≤ (natText false 10 n).length) : padInt w n = natText false 10 n := by
  rw [padInt, Nat.sub_eq_zero_of_le h]; rfl

theorem natText_long (n w : Nat) (h : 10 ^ w ≤ n) : w < (natText false 10 n).length := by
  refine natText_rec false 10 (by decide) (fun u t => ∀ w, 10 ^ w ≤ u → w < t.length) ?_ ?_ n w h
  · intro u hu w h
    cases w with
    | zero => simp
    | succ w => rw [pow_succ] at h; have : 0 < 10 ^ w := by positivity
                omega
  · intro u hu ih w h
    cases w with
    | zero => simp
    | succ w =>
      have := ih w (by rw [pow_succ] at h; omega)
      simp; omega

theorem daysIn_pos (y : Int) (m : Nat) : 1 ≤ daysIn y m := by unfold daysIn; split <;> (try split) <;> omega

/-- the day of the month is in its range -/
theorem civil_day (d : Int) : FirstOf (civil d).1 (civil d).2.1 (d - (civil d).2.2 + 1) ∧ 1 ≤ (civil d).2.2 ∧ (civil d).2.2 ≤ daysIn (civil d).1 (civil d).2.1 := by
  obtain ⟨h1, h2, h3, h4, h5, -⟩ := civil_spec d
  rw [goDate_eq _ _ _ h1 h2] at h3
  have hf := (firstOf_iff (civil d).1 (civil d).2.1 _).2 ⟨h1, h2, rfl⟩
  have e : d - (civil d).2.2 + 1 = jan1 (civil d).1 + before (civil d).1 (civil d).2.1 := by omega
  refine ⟨by rw [e]; exact hf, by have := h4 _ hf; omega, ?_⟩
  by_contra hc
  have hp := daysIn_pos (civil d).1 (civil d).2.1
  by_cases hm : (civil d).2.1 < 12
  · have := h5 _ _ _ (FirstOf.month hf hm) (by omega)
    omega
  · have e12 : (civil d).2.1 = 12 := by omega
    rw [e12] at hf hc hp
    have := h5 _ _ _ (FirstOf.next hf) (by simp [daysIn] at hc; rw [e12] at e; omega)
    rw [e12] at this; omega

/- ## Theorems -/

/-- A time stamp denotes this instant. -/
theorem C90_literal (env : FloatEnv F) (dur : List Char → Option Int) (s : List Char) (t : Int) (h : StampText s t) :
    parseDef env (parseTime dur) s = some (.num 2 (.time t)) := by
  have hc := stamp_chars h
  have ne : ∀ x : Char, ¬ Digit x → x ≠ '.' → x ≠ 'T' → ∀ c ∈ s, c ≠ x := by
    intro x h1 h2 h3 c hm e
    subst e
    rcases hc c hm with h | h | h
    · exact h1 h
    · exact h2 h
    · exact h3 h
  have hi : parseInt s = none := by
    refine not_int64 s '.' (stamp_dot h) (by unfold Digit; decide) ?_ (by decide)
    intro d hd hm
    simp only [List.mem_cons, List.not_mem_nil, or_false] at hm
    rcases hm with rfl | rfl | rfl | rfl | rfl | rfl | rfl | rfl <;> exact ne _ (by unfold Digit; decide) (by decide) (by decide) _ hd rfl
  have hf := stamp_not_float env h
  have hx : parseComplex env s = none := by
    rw [parseComplex, cutAt_none _ _ (ne 'a' (by unfold Digit; decide) (by decide) (by decide))]
    simp only
    rw [parseRect, cutAt_none _ _ (ne 'J' (by unfold Digit; decide) (by decide) (by decide))]
    simp only
    rw [cutAt_none _ _ (ne 'j' (by unfold Digit; decide) (by decide) (by decide))]
    simp only
    rw [hf]; rfl
  rw [parseDef_eq env _ s (bool_text_dec s (ne 'b' (by unfold Digit; decide) (by decide) (by decide))), hi, hf, hx]
  simp only
  rw [parseTime, stamp_low h, (layouts_iff s t).2 h]; rfl

/-- Any other text is a time only if it is a duration: no date that is not in the calendar, and no time that is not on the clock. -/
theorem C90_only (dur : List Char → Option Int) (s : List Char) (t : Int) : parseTime dur s = some t ↔
    StampText s t ∨ (¬ ∃ u, StampText s u) ∧ dur (s.map (fun c => if c = '¯' then '-' else c)) = some t := by
  have hl : ∀ u, parseLayouts (lowMinusAll s) layouts = some u ↔ StampText s u := by
    intro u
    rw [layouts_iff]
    constructor
    · intro h
      have e : lowMinusAll s = s := by
        refine unhigh_none s (fun c hc e => ?_)
        subst e
        have : '-' ∈ lowMinusAll s := List.mem_map.2 ⟨'¯', hc, rfl⟩
        have := stamp_chars h _ this
        revert this; unfold Digit; decide
      rwa [e] at h
    · intro h; rwa [stamp_low h]
  rw [parseTime]
  cases e : parseLayouts (lowMinusAll s) layouts with
  | some u =>
    have hu := (hl u).1 e
    rw [← hl t, e]
    constructor
    · exact .inl
    · rintro (h | ⟨h, -⟩)
      · exact h
      · exact absurd ⟨u, hu⟩ h
  | none =>
    have hn : ¬ ∃ u, StampText s u := by rintro ⟨u, hu⟩; rw [(hl u).2 hu] at e; exact absurd e (by simp)
    simp only [Int.zero_add, Option.map_id']
    constructor
    · exact fun h => .inr ⟨hn, h⟩
    · rintro (h | ⟨-, h⟩)
      · exact absurd ⟨t, h⟩ hn
      · exact h

/-- A text denotes at most one time stamp. -/
theorem C90_unique (s : List Char) (t u : Int) (h : StampText s t) (h' : StampText s u) : t = u := by
  have a := (layouts_iff s t).2 h
  rw [(layouts_iff s u).2 h'] at a
  injection a with a; exact a.symm

/-- The text of a time stamp (from the year 1000 on) is its date and time in milliseconds, whatever the precision. -/
theorem C90_text (durText : Int → List Char) (pp t : Int) (h : 365243 * (86400 * 10 ^ 9) ≤ t) :
    ∃ (M D H I S F : List Char) (y mo d h mi s ms : Nat), Num 2 mo M ∧ Num 2 d D ∧ Num 2 h H ∧ Num 2 mi I ∧ Num 2 s S ∧ Num 3 ms F ∧
      Instant y mo d h mi s (ms * 10 ^ 6) (t - t % 10 ^ 6) ∧
      timeText durText pp t = Nat.toDigits 10 y ++ '.' :: M ++ '.' :: D ++ 'T' :: H ++ '.' :: I ++ '.' :: S ++ '.' :: F := by
  have hy : ¬ t < y1k := by rw [y1k_eq]; omega
  have hr0 : 0 ≤ t % nsDay ∧ t % nsDay < nsDay := by unfold nsDay; omega
  have hr1 : (t % nsDay).toNat < 86400000000000 := by unfold nsDay; omega
  have hd0 : 365243 ≤ t / nsDay := by unfold nsDay; omega
  have hdm : t / nsDay * nsDay + t % nsDay = t := by unfold nsDay; omega
  obtain ⟨hf, hd1, hd2⟩ := civil_day (t / nsDay)
  obtain ⟨hm1, hm2, -⟩ := (firstOf_iff _ _ _).1 hf
  have hy1 : (civil (t / nsDay)).1 = yearOf (t / nsDay) := rfl
  have hy2 := yearOf_spec (t / nsDay)
  have hy3 : 1000 ≤ (civil (t / nsDay)).1 := by
    have := (jan1_lt_iff 1000 (yearOf (t / nsDay) + 1)).1 (by have : jan1 1000 = 365243 := by decide
                                                              omega)
    omega
  have hdi : daysIn (civil (t / nsDay)).1 (civil (t / nsDay)).2.1 ≤ 31 := by unfold daysIn; split <;> (try split) <;> omega
  have ey : (((civil (t / nsDay)).1.toNat : Nat) : Int) = (civil (t / nsDay)).1 := by omega
  have ed : (((civil (t / nsDay)).2.2.toNat : Nat) : Int) = (civil (t / nsDay)).2.2 := by omega
  refine ⟨padInt 2 (civil (t / nsDay)).2.1, padInt 2 (civil (t / nsDay)).2.2.toNat, padInt 2 ((t % nsDay).toNat / 3600000000000),
    padInt 2 ((t % nsDay).toNat / 60000000000 % 60), padInt 2 ((t % nsDay).toNat / 1000000000 % 60), padInt 3 ((t % nsDay).toNat / 1000000 % 1000),
    (civil (t / nsDay)).1.toNat, _, _, _, _, _, _, padInt_num 2 _ (by decide) (by omega), padInt_num 2 _ (by decide) (by omega),
    padInt_num 2 _ (by decide) (by omega), padInt_num 2 _ (by decide) (by omega), padInt_num 2 _ (by decide) (by omega),
    padInt_num 3 _ (by decide) (by omega), ?_, ?_⟩
  · rw [ey]
    refine ⟨_, hf, by omega, by omega, by omega, by omega, by omega, by omega, ?_⟩
    rw [ed]
    generalize hq : (t % nsDay) = r at *
    generalize t / nsDay = q at *
    have er : ((r.toNat : Nat) : Int) = r := by omega
    generalize r.toNat = k at *
    subst er
    unfold nsDay at *
    push_cast
    omega
  · rw [timeText, if_neg hy, stampText]
    rw [padInt_large 4 _ (by have := natText_long (civil (t / nsDay)).1.toNat 3 (by omega); omega), natText_toDigits]

/-- Up to the year 9999 a time stamp is read back from its text, to the millisecond. -/
theorem C90_round_trip (env : FloatEnv F) (dur : List Char → Option Int) (durText : Int → List Char) (pp t : Int) (h : 365243 * (86400 * 10 ^ 9) ≤ t)
    (h' : t < 3652425 * (86400 * 10 ^ 9)) : parseDef env (parseTime dur) (timeText durText pp t) = some (.num 2 (.time (t - t % 10 ^ 6))) := by
  obtain ⟨M, D, H, I, S, G, y, mo, d, hh, mi, s, ms, hM, hD, hH, hI, hS, hF, hi, e⟩ := C90_text durText pp t h
  rw [e]
  refine C90_literal env dur _ _ (.fraction _ M D H I S G y mo d hh mi s (ms * 10 ^ 6) _ ?_ hM hD (.inr hH) hI hS ?_ hF.2.1 ?_ ?_ hi)
  · rw [← natText_toDigits]
    obtain ⟨f, hf, h1, h2, h3, h4, h5, h6, h7⟩ := hi
    have hr := firstOf_range hf
    have hf2 := (firstOf_iff _ _ _).1 hf
    have hlo : 1000 ≤ y := by
      by_contra hc
      have hle := jan1_le (x := (y : Int) + 1) (y := 1000) (by omega)
      have e1 : jan1 1000 = 365243 := by decide
      have hnext : f + daysIn y mo ≤ jan1 (y + 1) := by
        by_cases hm : mo < 12
        · have := firstOf_range (FirstOf.month hf hm); omega
        · have : mo = 12 := by omega
          subst this
          have := firstOf_range (FirstOf.next hf); simp [daysIn]
          have e12 := before_last y
          omega
      omega
    have hhi : y < 10000 := by
      by_contra hc
      have hle := jan1_le (x := 10000) (y := y) (by omega)
      have e1 : jan1 10000 = 3652425 := by decide
      omega
    have := padInt_num 4 y (by decide) (by omega)
    rwa [padInt_large 4 y (by have := natText_long y 3 (by omega); omega)] at this
  · intro e; rw [e] at hF; exact absurd hF.1 (by simp)
  · rw [hF.1, hF.2.2]; omega
  · rw [hF.1, hF.2.2]; omega

/-- A precision below ¯1 shows a duration (here: less than a day) as a date of the year 0. -/
theorem C90_duration_as_date (durText : Int → List Char) : timeText durText (-2) (3 * 10 ^ 9) = "0000.01.01T00.00.03.000".toList := by
  rw [timeText, if_pos (by decide), if_pos (by decide)]
  decide +kernel

/-- a day that does not exist -/
theorem C90_no_such_day (t : Int) : ¬ StampText "2019.02.29".toList t := by
  rw [← layouts_iff]
  have : parseLayouts "2019.02.29".toList layouts = none := by decide +kernel
  rw [this]; simp

/-- a leap day, with and without time -/
example : StampText "2020.02.29".toList (737849 * (86400 * 10 ^ 9)) := by rw [← layouts_iff]; decide +kernel
example : StampText "2020.02.29T9.05".toList (737849 * (86400 * 10 ^ 9) + 9 * 3600 * 10 ^ 9 + 300 * 10 ^ 9) := by rw [← layouts_iff]; decide +kernel
example : StampText "2020.02.29T00.00.00.25".toList (737849 * (86400 * 10 ^ 9) + 250000000) := by rw [← layouts_iff]; decide +kernel

end Iv

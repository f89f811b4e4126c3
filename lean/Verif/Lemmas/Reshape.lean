import Verif.Model.Value
import Verif.Lemmas.Shape
namespace Iv

theorem cycFill_ok {α} (src : List α) (n k : Nat) (hk : k < src.length) :
    ∃ d, cycFill src n k = .ok d ∧ d.length = n ∧
      ∀ j, j < n → d[j]? = src[(k + j) % src.length]? := by
  induction n generalizing k with
  | zero => exact ⟨[], rfl, rfl, by intro j h; omega⟩
  | succ n ih =>
    have hk' : (if k + 1 = src.length then 0 else k + 1) < src.length := by split <;> omega
    obtain ⟨d, h1, h2, h3⟩ := ih _ hk'
    refine ⟨src[k] :: d, ?_, by simp [h2], ?_⟩
    · simp [cycFill, sliceAt_ok hk, h1, bind, Except.bind, pure, Except.pure]
    · intro j hj
      cases j with
      | zero => simp [Nat.mod_eq_of_lt hk, hk]
      | succ j =>
        rw [List.getElem?_cons_succ, h3 j (by omega)]
        congr 1
        split
        · rename_i he
          have : k + (j + 1) = src.length + j := by omega
          rw [this, Nat.add_mod_left]; simp
        · congr 1; omega

theorem foldl_mulI (l : List Nat) (a : Nat) :
    (l.map Int.ofNat).foldl (· * ·) (a : Int) = ((a * size l : Nat) : Int) := by
  induction l generalizing a with
  | nil => simp [size]
  | cons n ns ih =>
    simp only [List.map_cons, List.foldl_cons, size]
    have : (a : Int) * Int.ofNat n = ((a * n : Nat) : Int) := by simp
    rw [this, ih, Nat.mul_assoc]

theorem prodI_ofNat {S : List Nat} (h : S ≠ []) : prodI (S.map Int.ofNat) = (size S : Int) := by
  cases S with
  | nil => exact absurd rfl h
  | cons n ns =>
    simp only [prodI, List.map_cons, size]
    exact foldl_mulI ns n

theorem mkVal_ofNat {α} (k : Kind) (S : List Nat) (d : List α) :
    mkVal k (S.map Int.ofNat) d = .arr k ⟨S, d⟩ := by
  unfold mkVal
  rw [if_pos]
  · congr 2
    rw [List.map_map]
    exact (List.map_congr_left (fun x _ => by simp)).trans (List.map_id S)
  · simp

theorem reshapeArr_ok {α} (kd : Kind) (src : List α) (hne : src ≠ []) (S : List Nat) (hS : S ≠ []) :
    ∃ d, reshapeArr kd src (S.map Int.ofNat) = .ok (.arr kd ⟨S, d⟩) ∧ d.length = size S ∧
      ∀ k, k < size S → d[k]? = src[k % src.length]? := by
  have hl : 0 < src.length := by
    cases src with
    | nil => exact absurd rfl hne
    | cons => simp
  obtain ⟨d, h1, h2, h3⟩ := cycFill_ok src (size S) 0 hl
  refine ⟨d, ?_, h2, ?_⟩
  · unfold reshapeArr
    rw [if_neg (by simp [hne]), prodI_ofNat hS, if_neg (by omega)]
    simp only [Int.toNat_natCast, h1, bind, Except.bind, pure, Except.pure, mkVal_ofNat]
  · intro k hk; simpa using h3 k hk

theorem range_map_getElem {α} (l : List α) (g : Nat → α) (h : ∀ (k : Nat) (hk : k < l.length), g k = l[k]) :
    (List.range l.length).map g = l := by
  apply List.ext_getElem
  · simp
  · intro i h1 h2
    simp [h i h2]

theorem forLoop_slice {α} (l : List α) : forLoop (fun i => sliceAt l i) l.length 0 = .ok l := by
  cases l with
  | nil => rfl
  | cons x xs =>
    rw [forLoop_ok (g := fun k => ((x :: xs)[k]?).getD x) (x :: xs).length
      (fun k hk => by rw [sliceAt_ok hk, List.getElem?_eq_getElem hk, Option.getD_some])]
    congr 1
    exact range_map_getElem _ _ (fun k hk => by rw [List.getElem?_eq_getElem hk, Option.getD_some])

end Iv

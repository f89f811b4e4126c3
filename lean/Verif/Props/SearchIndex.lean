import Mathlib.Tactic.Choose
import Verif.Props.Search
import Verif.Props.Index
/-
C19: index-of and indexing together.
-/
namespace Iv
variable {α : Type}

/-- C19: `V[V⍳W]` is `W` (up to the comparison used by `⍳`) when every element of the vector `W` occurs in `V`.  (The result of the
index is the vector, or its element if there is only one.) -/
theorem C19_select (uk : List α → Kind) (eq : α → α → Bool) (origin : Int) (kl kr : Kind) (v w : List α)
    (hw : ∀ x ∈ w, ∃ y ∈ v, eq x y = true) :
    ∃ I d, indexof uk eq origin (.arr kl ⟨[v.length], v⟩) (.arr kr ⟨[w.length], w⟩) = .ok (.arr .int ⟨[w.length], I⟩) ∧
      index uk origin [.ints I] (.arr kl ⟨[v.length], v⟩) = .ok (squeeze kl ⟨[w.length], d⟩) ∧ d.length = w.length ∧
      ∀ (i : Nat) x, w[i]? = some x → ∃ y, d[i]? = some y ∧ eq x y = true := by
  obtain ⟨I, h1, h2, h3⟩ := C19_indexof uk eq origin kl kr v ⟨[w.length], w⟩
  have hpos : ∀ i : Nat, ∃ p : Nat, ∀ x, w[i]? = some x → I[i]? = some ((p : Int) + origin) ∧ ∃ y, v[p]? = some y ∧ eq x y = true := by
    intro i
    cases hx : w[i]? with
    | none => exact ⟨0, by simp⟩
    | some x =>
      obtain ⟨p, hp, hf⟩ := h3 i x hx
      refine ⟨p, fun x' hx' => ?_⟩
      cases hx'
      exact ⟨hp, C19_found eq v x p hf (hw x (List.mem_of_getElem? hx))⟩
  choose P hP using hpos
  have hI : I = ((List.range w.length).map P).map (fun (p : Nat) => (p : Int) + origin) := by
    apply List.ext_getElem?
    intro i
    by_cases hi : i < w.length
    · rw [(hP i _ (List.getElem?_eq_getElem hi)).1]
      simp [hi]
    · rw [List.getElem?_eq_none (by simp only at h2; omega), List.getElem?_eq_none (by simp; omega)]
  have hPv : ∀ p ∈ (List.range w.length).map P, p < v.length := by
    intro p hp
    obtain ⟨i, hi, rfl⟩ := List.mem_map.1 hp
    obtain ⟨_, y, hy, _⟩ := hP i _ (List.getElem?_eq_getElem (List.mem_range.1 hi))
    exact (List.getElem?_eq_some_iff.1 hy).1
  obtain ⟨r, g1, g2, g3, g4⟩ := C16_index uk origin [.ints I] kl ⟨[v.length], v⟩ (by simp [Arr.WF, size]) (by simp)
    [(List.range w.length).map P] ⟨⟨hI, hPv⟩, trivial⟩
  have hs : r.shape = [w.length] := by rw [g3]; simp
  have hl : r.data.length = w.length := by rw [g2, hs]; simp [size]
  refine ⟨I, r.data, h1, ?_, hl, ?_⟩
  · rw [g1]
    have : r = ⟨[w.length], r.data⟩ := by rw [← hs]
    rw [← this]
  · intro i x hx
    obtain ⟨_, y, hy, he⟩ := hP i x hx
    refine ⟨y, ?_, he⟩
    have hi : i < w.length := (List.getElem?_eq_some_iff.1 hx).1
    have hib : InB r.shape [i] := by rw [hs]; exact ⟨hi, trivial⟩
    obtain ⟨e1, e2⟩ := g4 [i] hib
    rw [Arr.get?_of_inB hib, Arr.get?_of_inB e1, hs] at e2
    have hpi : P i < v.length := (List.getElem?_eq_some_iff.1 hy).1
    simp only [flat, pickAt, List.zip_cons_cons, List.zip_nil_left, List.map_cons, List.map_nil, size, Nat.mul_one, Nat.add_zero] at e2
    rw [e2]
    have : (List.map P (List.range w.length)).getD i 0 = P i := by simp [hi]
    rw [this]; exact hy

example : ∀ x ∈ [30, 10], ∃ y ∈ [10, 20, 30], (decide (x = y)) = true := by decide
example : index (fun _ => .int) 1 [.ints [3, 1]] (.arr .int ⟨[3], [10, 20, 30]⟩) = .ok (squeeze .int (⟨[2], [30, 10]⟩ : Arr Nat)) := rfl

end Iv

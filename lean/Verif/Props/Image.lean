import Verif.Model.Image
import Verif.Lemmas.Shape
import Verif.Lemmas.TakeDrop
/-
C80: images show the integers they are made of.
-/
namespace Iv

/-! ### Specification -/

/-- the value that a pixel shows: opaque colors show as they are; for others the transparency is mixed into red -/
def shown (n : Int) : Int :=
  let u := (n % 2 ^ 32).toNat
  (((u / 2 ^ 24) ||| (u / 2 ^ 16 % 256)) * 65536 + u / 256 % 256 * 256 + u % 256 : Nat)

/-- the image has as many pixels as its shape requires -/
def Img.WF (m : Img) : Prop := m.pix.length = m.h * m.w

/-! ### Colors -/

theorem wide_high : ∀ c < 256, wide c >>> 8 = c ∧ (wide c &&& 0xFF00) = c <<< 8 := by decide +kernel

theorem colorValue_eq (c : RGBA) (hr : c.r < 256) (hg : c.g < 256) (hb : c.b < 256) (ha : c.a < 256) :
    colorValue c = ((255 - c.a) ||| c.r) * 65536 + c.g * 256 + c.b := by
  unfold colorValue
  rw [(wide_high _ hr).2, (wide_high _ hg).2, (wide_high _ hb).1, (wide_high _ ha).1]
  rw [← Nat.shiftLeft_add, ← Nat.shiftLeft_or_distrib]
  rw [show ((255 - c.a) ||| c.r) <<< 16 = (((255 - c.a) ||| c.r) <<< 8) <<< 8 by rw [← Nat.shiftLeft_add]]
  rw [← Nat.shiftLeft_or_distrib, ← Nat.shiftLeft_add_eq_or_of_lt (by simpa using hb), ← Nat.shiftLeft_add_eq_or_of_lt (by simpa using hg)]
  simp only [Nat.shiftLeft_eq]
  omega

theorem toColor_eq (n : Int) : toColor n = ⟨(n % 2 ^ 32).toNat / 65536 % 256, (n % 2 ^ 32).toNat / 256 % 256, (n % 2 ^ 32).toNat % 256,
    255 - (n % 2 ^ 32).toNat / 16777216⟩ := by
  have hu : (n % 2 ^ 32).toNat < 2 ^ 32 := by omega
  unfold toColor
  generalize (n % 2 ^ 32).toNat = u at *
  have e8 : ∀ x : Nat, x &&& 255 = x % 256 := fun x => Nat.and_two_pow_sub_one_eq_mod x 8
  simp only [Nat.shiftRight_and_distrib]
  rw [show (0xFF0000 >>> 16 : Nat) = 255 from rfl, show (0xFF00 >>> 8 : Nat) = 255 from rfl, e8, e8, e8]
  simp only [Nat.shiftRight_eq_div_pow, RGBA.mk.injEq]
  refine ⟨by omega, by omega, by omega, by omega⟩

theorem C80_color (n : Int) : (colorValue (toColor n) : Int) = shown n := by
  have hu : (n % 2 ^ 32).toNat < 2 ^ 32 := by omega
  rw [colorValue_eq _ (by rw [toColor_eq]; simp only; omega) (by rw [toColor_eq]; simp only; omega) (by rw [toColor_eq]; simp only; omega)
    (by rw [toColor_eq]; simp only; omega), toColor_eq]
  unfold shown
  generalize (n % 2 ^ 32).toNat = u at *
  simp only
  have : 255 - (255 - u / 16777216) = u / 2 ^ 24 := by omega
  rw [this]

/-- An opaque color shows as it is. -/
theorem C80_opaque (n : Int) (h0 : 0 ≤ n) (h1 : n < 2 ^ 24) : shown n = n := by
  unfold shown
  have e : (n % 2 ^ 32).toNat = n.toNat := by omega
  rw [e]
  have e1 : n.toNat / 2 ^ 24 = 0 := by omega
  simp only [e1, Nat.zero_or]
  omega

/-- Exception: any other color in the documented range, up to 0xFFFFFFFF, shows as another one. -/
theorem C80_transparent (n : Int) (h0 : 2 ^ 24 ≤ n) : shown n < n := by
  have hlt : ∀ a < 256, ∀ b < 256, (a ||| b) < 256 := fun a ha b hb => Nat.or_lt_two_pow (n := 8) ha hb
  unfold shown
  have h3 := hlt ((n % 2 ^ 32).toNat / 2 ^ 24) (by omega) ((n % 2 ^ 32).toNat / 2 ^ 16 % 256) (by omega)
  simp only
  omega

/-! ### Pixels -/

theorem div_pix {w x : Nat} (y : Nat) (hx : x < w) : (y * w + x) / w = y ∧ (y * w + x) % w = x := by
  have hw : 0 < w := by omega
  constructor
  · rw [Nat.add_comm, Nat.add_mul_div_right _ _ hw, Nat.div_eq_of_lt hx, Nat.zero_add]
  · rw [Nat.add_comm, Nat.add_mul_mod_self_right, Nat.mod_eq_of_lt hx]

theorem pix_lt {h w x y : Nat} (hx : x < w) (hy : y < h) : y * w + x < h * w := by
  have : (y + 1) * w ≤ h * w := Nat.mul_le_mul_right w hy
  rw [Nat.add_mul, Nat.one_mul] at this
  omega

/-- a loop over the columns of a line -/
theorem line_loop {σ : Type} (f : σ × Nat → Nat → σ × Nat) (g : σ → Nat → Nat → σ) (hf : ∀ s i x, f (s, i) x = (g s i x, i + 1)) (s : σ) (i : Nat) :
    ∀ w, (List.range w).foldl f (s, i) = ((List.range w).foldl (fun s x => g s (i + x) x) s, i + w)
  | 0 => rfl
  | w + 1 => by rw [List.range_succ, List.foldl_append, line_loop f g hf s i w, List.foldl_append]; simp only [List.foldl_cons, List.foldl_nil, hf]; rfl

theorem set_loop {α : Type} (v : Nat → α) (l : List α) : ∀ n, n ≤ l.length →
    (List.range n).foldl (fun l i => l.set i (v i)) l = (List.range n).map v ++ l.drop n
  | 0, _ => rfl
  | n + 1, hn => by
    rw [List.range_succ, List.foldl_append, set_loop v l n (by omega), List.map_append]
    simp only [List.foldl_cons, List.foldl_nil]
    rw [List.set_append_right _ _ (by simp), List.length_map, List.length_range, Nat.sub_self]
    rw [List.drop_eq_getElem_cons (by omega : n < l.length), List.set_cons_zero]
    simp

theorem foldl_ext' {σ : Type} (f g : σ → Nat → σ) (P : σ → Prop) : ∀ (l : List Nat) (s : σ), P s → (∀ s x, P s → x ∈ l → f s x = g s x ∧ P (g s x)) →
    l.foldl f s = l.foldl g s ∧ P (l.foldl g s)
  | [], _, hs, _ => ⟨rfl, hs⟩
  | x :: l, s, hs, h => by
    obtain ⟨e, hp⟩ := h s x hs (List.mem_cons_self ..)
    simp only [List.foldl_cons, e]
    exact foldl_ext' f g P l _ hp (fun s x hs hx => h s x hs (List.mem_cons_of_mem _ hx))

theorem toInts_eq (m : Img) (hm : m.WF) : m.toInts = m.pix.map (fun c => (colorValue c : Int)) := by
  have lines : ∀ h, h ≤ m.h → (List.range h).foldl (fun s y => readRow m y s) (List.replicate (m.h * m.w) 0, 0)
      = ((List.range (h * m.w)).foldl (fun l i => l.set i (colorValue (m.pix.getD i ⟨0, 0, 0, 0⟩) : Int)) (List.replicate (m.h * m.w) 0), h * m.w) := by
    intro h hh
    induction h with
    | zero => simp
    | succ h ih =>
      rw [List.range_succ, List.foldl_append, ih (by omega)]
      simp only [List.foldl_cons, List.foldl_nil]
      unfold readRow
      rw [line_loop _ (fun s i x => s.set i (colorValue (m.goAt x h) : Int)) (fun _ _ _ => rfl), Nat.add_mul, Nat.one_mul, List.range_add,
        List.foldl_append, List.foldl_map]
      refine congrArg (fun l => (l, h * m.w + m.w)) ?_
      refine (foldl_ext' _ _ (fun _ => True) _ _ trivial ?_).1
      intro s x _ hx
      rw [List.mem_range] at hx
      refine ⟨?_, trivial⟩
      simp only [Img.goAt]
      rw [if_pos ⟨hx, by omega⟩]
  unfold Img.toInts
  rw [lines m.h (Nat.le_refl _)]
  simp only
  rw [set_loop _ _ _ (by simp)]
  unfold Img.WF at hm
  apply List.ext_getElem
  · simp [hm]
  · intro i h1 h2
    simp only [List.length_map] at h2
    have : i < m.h * m.w := by omega
    rw [List.getElem_append_left (by simpa using this)]
    simp [h2]

/-- The image of an array of integers has the shape of the array, and shows the colors of the integers; for opaque colors these are the integers.
All other things, also an array with a palette, are rejected. -/
theorem C80_image (h w : Nat) (ints : List Int) (hl : ints.length = h * w) :
    ∃ m, toImage (.ints [h, w] ints) = .ok m ∧ m.WF ∧ m.h = h ∧ m.w = w ∧ m.toInts = ints.map shown := by
  have lines : ∀ (h' : Nat), h' ≤ h → (List.range h').foldl (fun s y => drawLine ints w y s) (⟨h, w, List.replicate (h * w) ⟨0, 0, 0, 0⟩⟩, 0)
      = (⟨h, w, (List.range (h' * w)).foldl (fun l i => l.set i (toColor (ints.getD i 0))) (List.replicate (h * w) ⟨0, 0, 0, 0⟩)⟩, h' * w) := by
    intro h' hh
    induction h' with
    | zero => simp
    | succ y ih =>
      rw [List.range_succ, List.foldl_append, ih (by omega)]
      simp only [List.foldl_cons, List.foldl_nil]
      unfold drawLine
      rw [line_loop _ (fun s i x => Img.goSet s x y (toColor (ints.getD i 0))) (fun _ _ _ => rfl), Nat.add_mul, Nat.one_mul, List.range_add,
        List.foldl_append, List.foldl_map]
      congr 1
      generalize (List.range (y * w)).foldl (fun l i => l.set i (toColor (ints.getD i 0))) (List.replicate (h * w) ⟨0, 0, 0, 0⟩) = l0
      have : ∀ k, k ≤ w → (List.range k).foldl (fun s x => Img.goSet s x y (toColor (ints.getD (y * w + x) 0))) ⟨h, w, l0⟩
          = ⟨h, w, (List.range k).foldl (fun l x => l.set (y * w + x) (toColor (ints.getD (y * w + x) 0))) l0⟩ := by
        intro k hk
        induction k with
        | zero => rfl
        | succ k ih =>
          rw [List.range_succ, List.foldl_append, ih (by omega), List.foldl_append]
          simp only [List.foldl_cons, List.foldl_nil, Img.goSet]
          rw [if_pos ⟨by omega, by omega⟩]
      exact this w (Nat.le_refl _)
  have e : ints2image [h, w] ints = some ⟨h, w, ints.map toColor⟩ := by
    show some ((List.range h).foldl (fun s y => drawLine ints w y s) (⟨h, w, List.replicate (h * w) ⟨0, 0, 0, 0⟩⟩, 0)).1 = _
    rw [lines h (Nat.le_refl _)]
    simp only
    rw [set_loop _ _ _ (by simp)]
    congr 2
    apply List.ext_getElem
    · simp [hl]
    · intro i h1 h2
      simp only [List.length_map] at h2
      rw [List.getElem_append_left (by simp; omega)]
      simp [h2]
  have hwf : Img.WF ⟨h, w, ints.map toColor⟩ := by simp [Img.WF, hl]
  refine ⟨⟨h, w, ints.map toColor⟩, by simp only [toImage, e], hwf, rfl, rfl, ?_⟩
  rw [toInts_eq _ hwf, List.map_map]
  apply List.map_congr_left
  intro n _
  exact C80_color n

theorem C80_image_opaque (h w : Nat) (ints : List Int) (hl : ints.length = h * w) (ho : ∀ n ∈ ints, 0 ≤ n ∧ n < 2 ^ 24) :
    ∃ m, toImage (.ints [h, w] ints) = .ok m ∧ m.WF ∧ m.h = h ∧ m.w = w ∧ m.toInts = ints := by
  obtain ⟨m, h1, h2, h3, h4, h5⟩ := C80_image h w ints hl
  refine ⟨m, h1, h2, h3, h4, ?_⟩
  rw [h5]
  conv => rhs; rw [← List.map_id ints]
  exact List.map_congr_left (fun n hn => C80_opaque n (ho n hn).1 (ho n hn).2)

theorem C80_rejected (a : ImgArg) (h : ∀ h w ints, a ≠ .ints [h, w] ints) : toImage a = .error .err := by
  cases a with
  | ints shape ints =>
    match shape with
    | [h', w] => exact absurd rfl (h h' w ints)
    | [] => rfl
    | [_] => rfl
    | _ :: _ :: _ :: _ => rfl
  | indexed _ _ _ => rfl
  | other => rfl

/-- Setting an element of an image shows the color there, and all other elements remain. -/
theorem C80_set (m : Img) (hm : m.WF) (k : Nat) (hk : k < m.h * m.w) (n : Int) :
    ∃ m', m.setAt k (.int n) = .ok m' ∧ m'.WF ∧ m'.h = m.h ∧ m'.w = m.w ∧ m'.toInts = m.toInts.set k (shown n) := by
  have hw : m.w ≠ 0 := by intro h; rw [h] at hk; omega
  have hd : k / m.w < m.h := by rw [Nat.div_lt_iff_lt_mul (by omega)]; exact hk
  have hx : k - k / m.w * m.w < m.w := by
    have := Nat.mod_lt k (Nat.pos_of_ne_zero hw)
    have h2 := Nat.div_add_mod k m.w
    rw [Nat.mul_comm] at h2
    omega
  have hle : k / m.w * m.w ≤ k := Nat.div_mul_le_self k m.w
  have e : m.setAt k (.int n) = .ok { m with pix := m.pix.set k (toColor n) } := by
    unfold Img.setAt
    simp only [hw, if_false, Img.goSet]
    rw [if_pos ⟨hx, hd⟩]
    congr 3
    omega
  have hwf : Img.WF { m with pix := m.pix.set k (toColor n) } := by simpa [Img.WF] using hm
  refine ⟨_, e, hwf, rfl, rfl, ?_⟩
  rw [toInts_eq _ hwf, toInts_eq _ hm]
  simp only [List.map_set, C80_color]

/-- Other values are rejected. -/
theorem C80_set_rejected (m : Img) (k : Nat) : m.setAt k .noIndex = .error .err ∧ m.setAt k .noNumber = .error .err := ⟨rfl, rfl⟩

/-- Exception: the element `i;j` that is read from an image is that at `j;i`; if there is no such element it is 0xFF0000. -/
theorem C80_at (m : Img) (hm : m.WF) (i j : Nat) (hi : i < m.h) (hj : j < m.w) :
    ∃ c, m.at (i * m.w + j) = .ok c ∧
      (i < m.w → j < m.h → m.toInts[j * m.w + i]? = some (c : Int)) ∧ (¬ (i < m.w ∧ j < m.h) → c = 0xFF0000) := by
  have e : m.at (i * m.w + j) = .ok (colorValue (m.goAt i j)) := by
    unfold Img.at
    simp only [newIdxConverter, icIndexes_strides, bind, Except.bind]
    have h1 := div_pix i hj
    simp only [unflat, size, h1.1, h1.2]
    simp
    rw [Nat.mod_eq_of_lt hj, (div_pix i hj).1]
  refine ⟨_, e, ?_, ?_⟩
  · intro hi' hj'
    rw [toInts_eq m hm]
    have hlt : j * m.w + i < m.pix.length := by rw [hm]; exact pix_lt hi' hj'
    simp only [Img.goAt, hi', hj', and_self, if_true, List.getElem?_map, List.getElem?_eq_getElem hlt, Option.map_some]
    rw [List.getD_eq_getElem?_getD, List.getElem?_eq_getElem hlt]; rfl
  · intro hn
    simp only [Img.goAt, hn, if_false]
    rfl

example : ∃ m : Img, m.WF ∧ m.h = 2 ∧ m.w = 3 ∧ m.toInts = [1, 2, 3, 4, 5, 0xFFFFFF] ∧ m.at 1 = .ok 4 ∧ m.at 2 = .ok 0xFF0000 := by
  refine ⟨⟨2, 3, [1, 2, 3, 4, 5, 0xFFFFFF].map toColor⟩, rfl, rfl, rfl, by decide +kernel, rfl, rfl⟩

example : toImage (.indexed [1, 1] [0] [255]) = .error .err := rfl

end Iv

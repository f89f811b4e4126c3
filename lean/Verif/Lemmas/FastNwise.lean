import Verif.Lemmas.Nwise
namespace Iv
variable {m : Type → Type} [Monad m] [LawfulMonad m] {α : Type}

theorem foldl_assoc' {f : α → α → α} (hf : ∀ x y z, f (f x y) z = f x (f y z)) (x y : α) (ys : List α) :
    ys.foldl f (f x y) = f x (ys.foldl f y) := by
  induction ys generalizing y with
  | nil => rfl
  | cons z zs ih => simp only [List.foldl_cons]; rw [hf, ih]

theorem rfold_assoc {f : α → α → α} (hf : ∀ x y z, f (f x y) z = f x (f y z)) (x : α) (xs : List α) :
    rfold (m := m) (fun a b => pure (f a b)) (x :: xs) = pure (xs.foldl f x) := by
  induction xs generalizing x with
  | nil => rfl
  | cons y ys ih =>
    rw [rfold, ih, pure_bind, List.foldl_cons, foldl_assoc' hf]

theorem foldlM_pure' {β : Type} {f : β → α → β} (xs : List α) (x : β) :
    xs.foldlM (fun a b => (pure (f a b) : ExceptT Fail m β)) x = pure (xs.foldl f x) := by
  induction xs generalizing x with
  | nil => rfl
  | cons y ys ih => rw [List.foldlM_cons, pure_bind, ih]; rfl

theorem window_succ {vec : List α} {n i : Nat} {x : α} {xs : List α} (hn : 0 < n) (h : i + n < vec.length)
    (hw : window vec n i = x :: xs) : ∃ z, vec[i + n]? = some z ∧ window vec n (i + 1) = xs ++ [z] := by
  refine ⟨vec[i + n], by simp [h], ?_⟩
  obtain ⟨n, rfl⟩ : ∃ k, n = k + 1 := ⟨n - 1, by omega⟩
  unfold window at *
  rw [List.drop_eq_getElem_cons (by omega : i < vec.length), List.take_succ_cons] at hw
  have hx : (vec.drop (i + 1)).take n = xs := by injection hw
  rw [List.take_succ, hx, List.getElem?_drop]
  have : i + 1 + n = i + (n + 1) := by omega
  simp [this, h]

theorem window_length {vec : List α} {n i : Nat} (h : i + n ≤ vec.length) : (window vec n i).length = n := by
  simp [window]; omega

theorem fastLoop_aux {f : α → α → α} (hf : ∀ x y z, f (f x y) z = f x (f y z))
    (g : α → α → ExceptT Fail m α) (n : Nat) (hn : 1 < n) (vec : List α)
    (hg : ∀ k x y ys, k + n < vec.length → window vec n k = x :: y :: ys →
      g ((y :: ys).foldl f x) x = pure (ys.foldl f y))
    (cnt i : Nat) (hc : i + cnt + n ≤ vec.length) (acc : α) (ring : List α) (p : Nat)
    (hp : p < n) (hl : ring.length = n) (hr : ring.drop p ++ ring.take p = window vec n i)
    (hacc : ∀ x xs, window vec n i = x :: xs → acc = xs.foldl f x) :
    fastLoop (fun a b => pure (f a b)) g n vec cnt (i + 1) (some (acc, ring, p)) =
      (List.range' (i + 1) cnt).mapM (fun k => rfold (fun a b => pure (f a b)) (window vec n k)) := by
  induction cnt generalizing i acc ring p with
  | zero => simp [fastLoop]
  | succ cnt ih =>
    have hwl := window_length (vec := vec) (n := n) (i := i) (by omega)
    match hw : window vec n i, hwl with
    | [], h => simp at h; omega
    | [x], h => simp at h; omega
    | x :: y :: ys, h =>
      obtain ⟨z, hz, hnext⟩ := window_succ (by omega) (by omega) hw
      rw [List.range'_succ, List.mapM_cons]
      unfold fastLoop
      have hlast : ((vec.drop (i + 1)).take n).getLast? = some z := by
        show (window vec n (i + 1)).getLast? = some z
        rw [hnext, List.getLast?_append]; rfl
      have hold : sliceAt ring p = .ok x := by
        rw [sliceAt_eq_ok]
        have h0 : (ring.drop p ++ ring.take p)[0]? = some x := by rw [hr, hw]; rfl
        rw [List.getElem?_append, if_pos (by simp; omega), List.getElem?_drop] at h0
        simpa using h0
      have hstep : fastStep (fun a b => (pure (f a b) : ExceptT Fail m α)) g (some (acc, ring, p)) ((vec.drop (i + 1)).take n) =
          pure (f (ys.foldl f y) z, ring.set p z, if p + 1 = n then 0 else p + 1) := by
        unfold fastStep
        simp only [hlast, hold, ofRes_ok, pure_bind]
        rw [hacc _ _ hw, hg i x y ys (by omega) hw, pure_bind, hl]
      rw [hstep, pure_bind]
      have hres : rfold (m := m) (fun a b => pure (f a b)) (window vec n (i + 1)) = pure (f (ys.foldl f y) z) := by
        rw [hnext]
        show rfold _ (y :: (ys ++ [z])) = _
        rw [rfold_assoc hf, List.foldl_append]
        rfl
      rw [hres, pure_bind]
      have hsplit : ring.drop p = x :: ring.drop (p + 1) ∧ ring.drop (p + 1) ++ ring.take p = y :: ys := by
        have h1 : ring.drop p = ring[p] :: ring.drop (p + 1) := List.drop_eq_getElem_cons (by omega)
        rw [h1, hw, List.cons_append] at hr
        injection hr with ha hb
        exact ⟨by rw [h1, ha], hb⟩
      have := ih (i + 1) (by omega) (f (ys.foldl f y) z) (ring.set p z) (if p + 1 = n then 0 else p + 1)
        (by split <;> omega) (by simpa using hl) (by
          rw [hnext, ← hsplit.2]
          by_cases hpn : p + 1 = n
          · rw [if_pos hpn]
            simp only [List.drop_zero, List.take_zero, List.append_nil]
            rw [List.drop_eq_nil_of_le (by omega), List.nil_append, List.set_eq_take_append_cons_drop, if_pos (by omega)]
            rw [List.drop_eq_nil_of_le (by omega)]
          · rw [if_neg hpn]
            rw [List.drop_set, if_pos (by omega), List.set_eq_take_append_cons_drop, if_pos (by omega)]
            rw [List.take_append, List.length_take, Nat.min_eq_left (by omega), List.take_of_length_le (by simp; omega)]
            have : p + 1 - p = 1 := by omega
            rw [this]
            simp) (by
          intro x' xs' hx'
          rw [hnext] at hx'
          injection hx' with h1 h2
          subst h1
          rw [← h2, show ys.append [z] = ys ++ [z] from rfl, List.foldl_append]
          rfl)
      rw [this]

theorem fastLoop_eq {f : α → α → α} (hf : ∀ x y z, f (f x y) z = f x (f y z))
    (g : α → α → ExceptT Fail m α) (n : Nat) (hn : 1 < n) (vec : List α)
    (hg : ∀ k x y ys, k + n < vec.length → window vec n k = x :: y :: ys →
      g ((y :: ys).foldl f x) x = pure (ys.foldl f y)) (hle : n ≤ vec.length) :
    fastLoop (fun a b => pure (f a b)) g n vec (vec.length + 1 - n) 0 none =
      (List.range (vec.length + 1 - n)).mapM (fun k => rfold (fun a b => pure (f a b)) (window vec n k)) := by
  have hwl := window_length (vec := vec) (n := n) (i := 0) (by omega)
  match hw : window vec n 0, hwl with
  | [], h => simp at h; omega
  | x :: xs, h =>
    have hc : vec.length + 1 - n = (vec.length - n) + 1 := by omega
    rw [hc, List.range_eq_range', List.range'_succ, List.mapM_cons]
    unfold fastLoop
    have hstep : fastStep (fun a b => (pure (f a b) : ExceptT Fail m α)) g none ((vec.drop 0).take n) =
        pure (xs.foldl f x, x :: xs, 0) := by
      have : (vec.drop 0).take n = x :: xs := hw
      rw [this]
      unfold fastStep
      simp only [foldlM_pure', pure_bind]
    rw [hstep, pure_bind, hw, rfold_assoc hf, pure_bind]
    have := fastLoop_aux (m := m) hf g n hn vec hg (vec.length - n) 0 (by omega) (xs.foldl f x) (x :: xs) 0 (by omega) h
      (by rw [hw]; simp) (by intro a as ha; rw [hw] at ha; injection ha with h1 h2; rw [h1, h2])
    rw [this]

end Iv

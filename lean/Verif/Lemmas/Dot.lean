import Verif.Model.Dot
import Verif.Lemmas.Effect
namespace Iv

theorem allIdx_append (s t : List Nat) : allIdx (s ++ t) = (allIdx s).flatMap (fun i => (allIdx t).map (i ++ ·)) := by
  induction s with
  | nil => simp [allIdx]
  | cons n s ih =>
    simp only [List.cons_append, allIdx, ih, List.flatMap_assoc]
    congr 1
    funext i
    simp [List.flatMap_map, List.map_flatMap, List.map_map, Function.comp_def]

theorem flat_append' {s i : List Nat} (h : i.length = s.length) (t j : List Nat) :
    flat (s ++ t) (i ++ j) = flat s i * size t + flat t j := by
  induction s generalizing i with
  | nil => cases i <;> simp_all [flat]
  | cons n s ih =>
    cases i with
    | nil => simp at h
    | cons k i =>
      simp only [List.cons_append, flat, size_append]
      rw [ih (by simpa using h), Nat.add_mul, Nat.mul_assoc]
      omega

variable {m : Type → Type} [Monad m] [LawfulMonad m] {α : Type}

theorem ifold_snoc (f g : α → α → ExceptT Fail m α) (l : List (α × α)) (p : α × α) :
    ifold f g (l ++ [p]) = (do let u ← g p.1 p.2; l.reverse.foldlM (fun v q => do let u ← g q.1 q.2; f u v) u) := by
  induction l with
  | nil => simp [ifold]
  | cons q l ih =>
    cases hl : l ++ [p] with
    | nil => simp at hl
    | cons r rs =>
      rw [List.cons_append, hl, ifold, ← hl, ih]
      simp [List.foldlM_append]

theorem innerLoop_some (f g : α → α → ExceptT Fail m α) (rd : Nat → Res (α × α)) (l : List (α × α)) (k : Nat)
    (hk : k ≤ l.length) (hrd : ∀ (i : Nat) p, l[i]? = some p → rd i = .ok p) (v : α) :
    innerLoop f g rd k (some v) = (do let w ← (l.take k).reverse.foldlM (fun v q => do let u ← g q.1 q.2; f u v) v; pure (some w)) := by
  induction k generalizing v with
  | zero => simp [innerLoop]
  | succ k ih =>
    have hg : l[k]? = some l[k] := List.getElem?_eq_getElem (by omega)
    simp only [innerLoop, hrd k _ hg, ofRes_ok, pure_bind]
    rw [List.take_succ, hg]
    simp only [Option.toList_some, List.reverse_append, List.reverse_singleton, List.singleton_append, List.foldlM_cons, bind_assoc]
    congr 1; funext u
    congr 1; funext w
    rw [ih (by omega)]

theorem innerLoop_eq (f g : α → α → ExceptT Fail m α) (rd : Nat → Res (α × α)) (l : List (α × α))
    (hrd : ∀ (i : Nat) p, l[i]? = some p → rd i = .ok p) :
    (do let v ← innerLoop f g rd l.length none; copyNil v) = ifold f g l := by
  rcases List.eq_nil_or_concat l with rfl | ⟨l', p, rfl⟩
  · simp [innerLoop, copyNil, ifold]
  · simp only [List.concat_eq_append] at *
    rw [ifold_snoc]
    have hl : (l' ++ [p]).length = l'.length + 1 := by simp
    rw [hl]
    have hg : (l' ++ [p])[l'.length]? = some p := by simp
    simp only [innerLoop, hrd _ _ hg, ofRes_ok, pure_bind, bind_assoc]
    congr 1; funext u
    rw [innerLoop_some f g rd (l' ++ [p]) _ (by simp) hrd]
    simp [copyNil]

end Iv

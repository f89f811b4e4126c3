import Verif.Model.FuncIndex
import Verif.Lemmas.Effect
import Verif.Lemmas.AllIdx
import Verif.Props.Assign
/-
C100 selection by a function: `A[f]←R`.
-/
namespace Iv
variable {α : Type} {m : Type → Type} [Monad m] [LawfulMonad m]

/-- Specification: the positions of the ones in a list of numbers. -/
def onesAt (ns : List Int) : List Nat := (List.range ns.length).filter (fun i => ns[i]? = some 1)

theorem onesAt_cons (n : Int) (ns : List Int) : onesAt (n :: ns) = (if n = 1 then [0] else []) ++ (onesAt ns).map (· + 1) := by
  simp only [onesAt, List.length_cons, List.range_succ_eq_map, List.filter_cons, List.getElem?_cons_zero, Option.some.injEq, decide_eq_true_eq]
  rw [List.filter_map]
  have : ((fun i => decide ((n :: ns)[i]? = some 1)) ∘ Nat.succ) = (fun i => decide (ns[i]? = some 1)) := by
    funext i; simp
  rw [this]
  split <;> rfl

theorem funcIndexLoop_num (origin : Int) (s : List Nat) (g : List Int → α → ExceptT Fail m Int) (vs : List α) :
    ∀ (i : Nat) (res : List Nat), i + vs.length ≤ size s →
    funcIndexLoop origin s (fun L v => do return .num (some (← g L v))) vs i (unflat s i) res = (do
      let ns ← (((List.range' i vs.length).map (unflat s)).zip vs).mapM (fun p => g (p.1.map (fun (k : Nat) => origin + (k : Int))) p.2)
      return res ++ (onesAt ns).map (· + i)) := by
  induction vs with
  | nil => intro i res _; simp [funcIndexLoop, onesAt]
  | cons v vs ih =>
    intro i res h
    simp only [List.length_cons] at h
    simp only [funcIndexLoop, List.length_cons, List.range'_succ, List.map_cons, List.zip_cons_cons, List.mapM_cons, bind_assoc, pure_bind]
    congr 1
    funext n
    have hidx : vs ≠ [] → incArrayIndex (unflat s i) s = unflat s (i + 1) := by
      intro hne
      have : vs.length ≠ 0 := by simpa using hne
      rw [incArrayIndex_unflat (by omega), Nat.mod_eq_of_lt (by omega)]
    by_cases hv : vs = []
    · subst hv
      simp only [funcIndexLoop, List.length_nil, List.range'_zero, List.map_nil, List.zip_nil_left, List.mapM_nil, pure_bind, onesAt_cons]
      congr 1
      split <;> simp [onesAt]
    · rw [hidx hv, ih (i + 1) _ (by omega)]
      congr 1
      funext ns
      rw [onesAt_cons]
      congr 1
      simp only [List.map_append, List.map_map, ← List.append_assoc]
      congr 1
      · split <;> simp
      · apply List.map_congr_left; intro x _; simp; omega

/-- C100: a function which returns an integer for each element is called once for each element of the array, in row-major order,
with the index vector of the element (counted from ⎕IO) on the left and the element on the right; exactly the elements with the
result 1 are selected, in this order; an error of the function is the error of the selection. -/
theorem C100_calls (origin : Int) (g : List Int → α → ExceptT Fail m Int) (a : Arr α) (ha : a.WF) :
    funcArrayIndex origin (fun L v => do return .num (some (← g L v))) a = (do
      let ns ← ((allIdx a.shape).zip a.data).mapM (fun p => g (p.1.map (fun (k : Nat) => origin + (k : Int))) p.2)
      return ([(onesAt ns).length], (onesAt ns).map Int.ofNat)) := by
  have ha' : a.data.length = size a.shape := ha
  have h := funcIndexLoop_num origin a.shape g a.data 0 [] (by omega)
  rw [unflat_zero] at h
  unfold funcArrayIndex
  rw [h]
  rw [allIdx_eq, List.range_eq_range', ← ha']
  simp

theorem replicate_updates (l : List Int) (hn : l.Nodup) (v : α) (p : Int) :
    ((l.zip (List.replicate l.length v)).filter (fun q => q.1 = p)).map Prod.snd = if p ∈ l then [v] else [] := by
  induction l with
  | nil => rfl
  | cons x l ih =>
    obtain ⟨h1, h2⟩ := List.nodup_cons.1 hn
    simp only [List.length_cons, List.replicate_succ, List.zip_cons_cons, List.filter_cons]
    by_cases hx : x = p
    · subst hx
      have := ih h2
      rw [if_neg h1] at this
      simp [this]
    · have hx' : ¬ p = x := fun h => hx h.symm
      simp [hx, hx', ih h2]

/-- C100: `A[f]←v` for a function without effects which returns integers: an element becomes `v` (or `old g v` for the modified
assignment `A[f]g←v`) if the function returns 1 for its index and its value; the other elements do not change. -/
theorem C100_assign (fits : Kind → α → Bool) (md : Option (α → α → α)) (origin : Int) (g : List Int → α → Int)
    (k : Kind) (a : Arr α) (ha : a.WF) (v : α) :
    ∃ k' a', (do let idx ← funcArrayIndex (m := m) origin (fun L x => pure (.num (some (g L x)))) a
                 assignValue fits (pureMod md) (.arr k a) idx (.scalar v)) = pure (.arr k' a') ∧ a'.WF ∧ a'.shape = a.shape ∧
      ∀ i, InB a.shape i → a'.get? i = (a.get? i).map (fun x => if g (i.map (fun (j : Nat) => origin + (j : Int))) x = 1 then upd1 md x v else x) := by
  have ha' : a.data.length = size a.shape := ha
  have hc := C100_calls (m := m) origin (fun L x => pure (g L x)) a ha
  simp only [pure_bind] at hc
  rw [hc]
  simp only [List.mapM_pure, pure_bind]
  generalize hns : ((allIdx a.shape).zip a.data).map (fun p => g (p.1.map (fun (j : Nat) => origin + (j : Int))) p.2) = ns
  have hnl : ns.length = a.data.length := by rw [← hns]; simp [allIdx_length, ha']
  have hnodup : ((onesAt ns).map Int.ofNat).Nodup := by
    exact List.pairwise_map.2 ((List.nodup_range.sublist List.filter_sublist).imp (fun h e => h (Int.ofNat.inj e)))
  obtain ⟨k', a', e1, e2, e3, e4⟩ := C17_flat (m := m) fits md k a ha ([(onesAt ns).length], (onesAt ns).map Int.ofNat) (.scalar v)
    (by
      intro i hi
      obtain ⟨j, hj, rfl⟩ := List.mem_map.1 hi
      have := (List.mem_filter.1 hj).1
      rw [List.mem_range, hnl] at this
      exact .inr ⟨Int.natCast_nonneg j, by simpa using this⟩) trivial (by simp [assignedValues])
  refine ⟨k', a', e1, e2, e3, ?_⟩
  intro i hi
  rw [e4 i hi]
  have hlt := flat_lt hi
  obtain ⟨x, hx⟩ : ∃ x, a.data[flat a.shape i]? = some x := ⟨_, List.getElem?_eq_getElem (by omega)⟩
  have hget : a.get? i = some x := by
    simp only [Arr.get?]
    rw [if_pos hi, hx]
  rw [hget]
  simp only [Option.map_some, Option.some.injEq]
  have hn1 : ns[flat a.shape i]? = some (g (i.map (fun (j : Nat) => origin + (j : Int))) x) := by
    rw [← hns, List.getElem?_map, (List.getElem?_zip_eq_some (z := (i, x))).2 ⟨allIdx_getElem? hi, hx⟩]
    rfl
  have hmem : ((flat a.shape i : Nat) : Int) ∈ (onesAt ns).map Int.ofNat ↔ g (i.map (fun (j : Nat) => origin + (j : Int))) x = 1 := by
    rw [List.mem_map]
    constructor
    · rintro ⟨j, hj, he⟩
      have : j = flat a.shape i := Int.ofNat.inj he
      subst this
      have := (List.mem_filter.1 hj).2
      rw [hn1] at this
      simpa using this
    · intro h1
      refine ⟨flat a.shape i, List.mem_filter.2 ⟨by rw [List.mem_range]; omega, ?_⟩, rfl⟩
      rw [hn1, h1]; simp
  unfold afterUpdates
  have hz : assignedValues ((onesAt ns).map Int.ofNat).length (.scalar v) = List.replicate ((onesAt ns).map Int.ofNat).length v := rfl
  simp only [hz]
  rw [replicate_updates _ hnodup v]
  by_cases h1 : g (i.map (fun (j : Nat) => origin + (j : Int))) x = 1
  · rw [if_pos (hmem.2 h1), if_pos h1]; rfl
  · rw [if_neg (fun h => h1 (hmem.1 h)), if_neg h1]; rfl

theorem funcIndexLoop_bad (origin : Int) (s : List Nat) (f : List Int → α → Answer) (vs : List α) :
    ∀ (i : Nat) (res : List Nat), i + vs.length ≤ size s →
    (∀ j v, vs[j]? = some v → f ((unflat s (i + j)).map (fun (k : Nat) => origin + (k : Int))) v ≠ .empty) →
    (∃ j v, vs[j]? = some v ∧ ∀ n, f ((unflat s (i + j)).map (fun (k : Nat) => origin + (k : Int))) v ≠ .num (some n)) →
    funcIndexLoop (m := m) origin s (fun L v => pure (f L v)) vs i (unflat s i) res = throw .err := by
  induction vs with
  | nil => rintro i res _ _ ⟨j, v, hj, _⟩; simp at hj
  | cons v vs ih =>
    intro i res h hne hbad
    simp only [List.length_cons] at h
    unfold funcIndexLoop
    rw [pure_bind]
    have h0 := hne 0 v rfl
    rw [Nat.add_zero] at h0
    cases hf : f ((unflat s i).map (fun (k : Nat) => origin + (k : Int))) v with
    | empty => exact absurd hf h0
    | noNumber => rfl
    | num o =>
      cases o with
      | none => rfl
      | some n =>
        obtain ⟨j, w, hj, hw⟩ := hbad
        match j with
        | 0 =>
          simp only [List.getElem?_cons_zero, Option.some.injEq] at hj
          subst hj
          rw [Nat.add_zero] at hw
          exact absurd hf (hw n)
        | j + 1 =>
          simp only [List.getElem?_cons_succ] at hj
          have hlt : j < vs.length := (List.getElem?_eq_some_iff.1 hj).1
          simp only []
          rw [incArrayIndex_unflat (by omega), Nat.mod_eq_of_lt (by omega)]
          apply ih (i + 1) _ (by omega)
          · intro j' v' hj'
            have := hne (j' + 1) v' (by simpa using hj')
            rwa [show i + (j' + 1) = i + 1 + j' by omega] at this
          · exact ⟨j, w, hj, by rwa [show i + 1 + j = i + (j + 1) by omega]⟩

/-- C100: a function (without effects, never empty) with an answer that is no integer for some element makes the selection fail. -/
theorem C100_no_number (origin : Int) (f : List Int → α → Answer) (a : Arr α) (ha : a.WF)
    (hne : ∀ i x, a.get? i = some x → f (i.map (fun (k : Nat) => origin + (k : Int))) x ≠ .empty)
    (i : List Nat) (x : α) (hx : a.get? i = some x) (hbad : ∀ n, f (i.map (fun (k : Nat) => origin + (k : Int))) x ≠ .num (some n)) :
    funcArrayIndex (m := m) origin (fun L v => pure (f L v)) a = throw .err := by
  have ha' : a.data.length = size a.shape := ha
  unfold funcArrayIndex
  have hgi : ∀ i x, a.get? i = some x ↔ InB a.shape i ∧ a.data[flat a.shape i]? = some x := by
    intro i x
    simp only [Arr.get?]
    split <;> simp_all
  rw [← unflat_zero, funcIndexLoop_bad origin a.shape f a.data 0 [] (by omega)]
  · simp
  · intro j v hj
    rw [Nat.zero_add]
    have hlt : j < a.data.length := (List.getElem?_eq_some_iff.1 hj).1
    refine hne _ v ((hgi _ _).2 ⟨unflat_inB (by omega), ?_⟩)
    rwa [flat_unflat (by omega)]
  · obtain ⟨h1, h2⟩ := (hgi i x).1 hx
    refine ⟨flat a.shape i, x, h2, ?_⟩
    rw [Nat.zero_add, unflat_flat h1]
    exact hbad

theorem funcIndexLoop_stuck (origin : Int) (s : List Nat) (f : List Int → α → ExceptT Fail m Answer) (idx : List Nat) (vs : List α)
    (h : ∀ v ∈ vs, f (idx.map (fun (k : Nat) => origin + (k : Int))) v = pure .empty) :
    ∀ (i : Nat) (res : List Nat), funcIndexLoop origin s f vs i idx res = pure res := by
  induction vs with
  | nil => intro i res; rfl
  | cons v vs ih =>
    intro i res
    unfold funcIndexLoop
    rw [h v (by simp), pure_bind]
    exact ih (fun v hv => h v (by simp [hv])) (i + 1) res

/-- C100 (exception): an empty result means "not selected" (index.go:298), but the index vector is not advanced after it: a
function that returns empty for the first index vector for every element is never called with another one, and nothing is
selected. -/
theorem C100_empty_stuck (origin : Int) (f : List Int → α → ExceptT Fail m Answer) (a : Arr α)
    (h : ∀ v ∈ a.data, f (List.replicate a.shape.length origin) v = pure .empty) :
    funcArrayIndex origin f a = pure ([0], []) := by
  unfold funcArrayIndex
  rw [funcIndexLoop_stuck]
  · rw [pure_bind]; rfl
  · intro v hv
    have : (List.replicate a.shape.length 0).map (fun (k : Nat) => origin + (k : Int)) = List.replicate a.shape.length origin := by simp
    rw [this]
    exact h v hv

/-- the example of the comment (index.go:299): `A←2 3⍴⍳6 ⋄ A[{(⍺[2]>⍺[1])∧⍵<4:1}]`; the elements 2 and 3 should be selected -/
def commentExample (L : List Int) (v : Int) : ExceptT Fail Id Answer :=
  match L with
  | [i, j] => pure (if j > i ∧ v < 4 then .num (some 1) else .empty)
  | _ => throw .err

/-- C100 (exception): the example of the comment selects nothing; the same function with the result 0 in place of empty selects 2
and 3. -/
theorem C100_empty_example :
    (funcArrayIndex (m := Id) 1 commentExample ⟨[2, 3], [1, 2, 3, 4, 5, 6]⟩).run = .ok ([0], []) ∧
    (funcArrayIndex (m := Id) 1 (fun L v => do
      match ← commentExample L v with | .empty => return .num (some 0) | x => return x) ⟨[2, 3], [1, 2, 3, 4, 5, 6]⟩).run = .ok ([2], [1, 2]) := by
  constructor <;> rfl

-- `A←3 3⍴⍳9 ⋄ A[{⍺[2]>⍺[1]}]←0` (apl_test.go:845)
example : (do let idx ← funcArrayIndex (m := Id) 1 (fun L (_ : Int) => pure (.num (some (if L.getD 1 0 > L.getD 0 0 then 1 else 0)))) ⟨[3, 3], [1, 2, 3, 4, 5, 6, 7, 8, 9]⟩
              assignValue (fun _ _ => true) none (.arr .int ⟨[3, 3], [1, 2, 3, 4, 5, 6, 7, 8, 9]⟩) idx (.scalar 0)).run =
    .ok (.arr .int ⟨[3, 3], [1, 0, 0, 4, 5, 0, 7, 8, 9]⟩) := by rfl

/-- the hypotheses of `C100_no_number` are met: the answer for the second element is no integer -/
example : (⟨[3], [1, 2, 3]⟩ : Arr Int).WF ∧ (⟨[3], [1, 2, 3]⟩ : Arr Int).get? [1] = some 2 ∧
    (∀ i x, (⟨[3], [1, 2, 3]⟩ : Arr Int).get? i = some x →
      (fun (_ : List Int) (v : Int) => if v = 2 then Answer.num none else .num (some 1)) (i.map (fun (k : Nat) => (1 : Int) + (k : Int))) x ≠ .empty) ∧
    (∀ n, (fun (_ : List Int) (v : Int) => if v = 2 then Answer.num none else .num (some 1)) [2] 2 ≠ .num (some n)) ∧
    (funcArrayIndex (m := Id) 1 (fun (_ : List Int) (v : Int) => pure (if v = 2 then Answer.num none else .num (some 1))) ⟨[3], [1, 2, 3]⟩).run = .error .err := by
  refine ⟨rfl, rfl, ?_, ?_, rfl⟩
  · intro i x _
    simp only
    split <;> simp
  · intro n
    simp

end Iv

import Verif.Model.Reduce
import Verif.Lemmas.AllIdx
import Verif.Lemmas.Expand
import Verif.Lemmas.Rotate
import Verif.Lemmas.Catenate
namespace Iv

section gen
variable {M : Type → Type} [Monad M] [LawfulMonad M] {β γ : Type}

theorem mapM_cons' (f : β → M γ) (x : β) (xs : List β) :
    (x :: xs).mapM f = (do let y ← f x; let ys ← xs.mapM f; pure (y :: ys)) := by
  simp [List.mapM_cons]

theorem mapM_congr' {f g : β → M γ} {l : List β} (h : ∀ x ∈ l, f x = g x) : l.mapM f = l.mapM g := by
  induction l with
  | nil => rfl
  | cons x xs ih =>
    rw [List.mapM_cons, List.mapM_cons, h x (by simp), ih (fun y hy => h y (by simp [hy]))]

theorem mapM_pure' (g : β → γ) (l : List β) : l.mapM (fun x => (pure (g x) : M γ)) = pure (l.map g) := by
  induction l with
  | nil => rfl
  | cons x xs ih => simp [List.mapM_cons, ih]

theorem mapM_map' {δ} (h : β → γ) (f : γ → M δ) (l : List β) : (l.map h).mapM f = l.mapM (fun x => f (h x)) := by
  induction l with
  | nil => rfl
  | cons x xs ih => simp [List.mapM_cons, ih]

/-- `mapM` with a body that succeeds everywhere -/
theorem mapM_pure_ex {l : List β} {g : β → M γ} {P : β → γ → Prop} (h : ∀ x ∈ l, ∃ v, g x = pure v ∧ P x v) :
    ∃ vs, l.mapM g = pure vs ∧ vs.length = l.length ∧
      ∀ (i : Nat) (x : β), l[i]? = some x → ∃ v, vs[i]? = some v ∧ g x = pure v ∧ P x v := by
  induction l with
  | nil => exact ⟨[], by simp, rfl, by simp⟩
  | cons x xs ih =>
    obtain ⟨vs, h1, h2, h3⟩ := ih (fun y hy => h y (by simp [hy]))
    obtain ⟨v, hv, hp⟩ := h x (by simp)
    refine ⟨v :: vs, by simp [List.mapM_cons, h1, hv], by simp [h2], ?_⟩
    intro i y hy
    cases i with
    | zero => simp at hy; subst hy; exact ⟨v, rfl, hv, hp⟩
    | succ i => simp at hy; simpa using h3 i y hy

theorem forLoopM_aux (body : Nat → M β) (n i : Nat) :
    forLoopM body n i = (List.range' i n).mapM body := by
  induction n generalizing i with
  | zero => simp [forLoopM]
  | succ n ih => simp [forLoopM, List.range'_succ, ih]

theorem forLoopM_eq (body : Nat → M β) (n : Nat) : forLoopM body n 0 = (List.range n).mapM body := by
  rw [forLoopM_aux, List.range_eq_range']

theorem odoLoopM_aux (s : List Nat) (body : Nat → List Nat → M β) (n i : Nat) (h : i + n ≤ size s) :
    odoLoopM s body n i (unflat s i) = (List.range' i n).mapM (fun k => body k (unflat s k)) := by
  induction n generalizing i with
  | zero => simp [odoLoopM]
  | succ n ih =>
    simp only [odoLoopM, List.range'_succ, List.mapM_cons]
    cases n with
    | zero => simp [odoLoopM]
    | succ n =>
      rw [incArrayIndex_unflat (by omega), Nat.mod_eq_of_lt (by omega), ih (i + 1) (by omega)]

/-- the odometer loop with effects is `mapM` over all index vectors in row-major order -/
theorem odoLoopM_eq (s : List Nat) (body : Nat → List Nat → M β) :
    odoLoopM s body (size s) 0 (List.replicate s.length 0) =
      (allIdx s).mapM (fun idx => body (flat s idx) idx) := by
  rw [← unflat_zero, odoLoopM_aux s body (size s) 0 (by omega), allIdx_eq, mapM_map', List.range_eq_range']
  apply mapM_congr'
  intro k hk
  have : k < size s := by simpa using hk
  simp [flat_unflat this]

/-- a fold that only writes results of an effectful call: first all calls, then all writes -/
theorem foldlM_split {δ} (l : List β) (g : β → M γ) (w : β → δ → γ → δ) (r : δ) :
    l.foldlM (fun r x => do let v ← g x; pure (w x r v)) r =
      (do let vs ← l.mapM g; pure ((l.zip vs).foldl (fun r p => w p.1 r p.2) r)) := by
  induction l generalizing r with
  | nil => simp
  | cons x xs ih =>
    simp only [List.foldlM_cons, List.mapM_cons, bind_assoc, pure_bind]
    congr 1
    funext v
    rw [ih]
    simp

/-- the same with an invariant of the results -/
theorem mapM_bind_congr {δ} (l : List β) (g : β → M γ) (P : γ → Prop) (k k' : List γ → M δ)
    (hg : ∀ x ∈ l, ∀ (k k' : γ → M δ), (∀ v, P v → k v = k' v) → (g x >>= k) = (g x >>= k'))
    (hk : ∀ vs, vs.length = l.length → (∀ v ∈ vs, P v) → k vs = k' vs) :
    (l.mapM g >>= k) = (l.mapM g >>= k') := by
  induction l generalizing k k' with
  | nil => simp only [List.mapM_nil, pure_bind]; exact hk [] rfl (by simp)
  | cons x xs ih =>
    simp only [List.mapM_cons, bind_assoc, pure_bind]
    apply hg x (by simp)
    intro v hv
    apply ih
    · intro y hy; exact hg y (by simp [hy])
    · intro vs hl hvs
      apply hk (v :: vs) (by simp [hl])
      intro u hu
      rcases List.mem_cons.1 hu with h | h
      · rw [h]; exact hv
      · exact hvs u h

end gen

section ex
variable {m : Type → Type} [Monad m] [LawfulMonad m] {α β : Type}

theorem ofRes_ok (x : α) : (ofRes (.ok x) : ExceptT Fail m α) = pure x := rfl
theorem ofRes_error (e : Fail) : (ofRes (.error e) : ExceptT Fail m α) = throw e := rfl

theorem throw_bind' (e : Fail) (k : α → ExceptT Fail m β) : ((throw e : ExceptT Fail m α) >>= k) = throw e := by
  simp only [bind, ExceptT.bind, throw, throwThe, MonadExceptOf.throw, ExceptT.mk]
  rw [pure_bind]
  rfl

theorem ofRes_bind_error (e : Fail) (k : α → ExceptT Fail m β) : ((ofRes (.error e) : ExceptT Fail m α) >>= k) = throw e := by
  rw [ofRes_error, throw_bind']

theorem reduceVec_eq (f : α → α → ExceptT Fail m α) (vec : List α) : reduceVec f vec = rfold f vec := by
  unfold reduceVec
  induction vec with
  | nil => rfl
  | cons x xs ih =>
    cases xs with
    | nil => simp [rfold]
    | cons y ys =>
      rw [rfold, ← ih]
      have : (x :: y :: ys).reverse = (y :: ys).reverse ++ [x] := by simp
      rw [this]
      cases h : (y :: ys).reverse with
      | nil => simp at h
      | cons z zs =>
        simp only [List.cons_append]
        rw [List.foldlM_append]
        simp

theorem rfold_pure (f : α → α → α) (init : List α) (last : α) :
    rfold (m := m) (fun x y => pure (f x y)) (init ++ [last]) = pure (init.foldr f last) := by
  induction init with
  | nil => rfl
  | cons x xs ih =>
    cases hxs : xs ++ [last] with
    | nil => simp at hxs
    | cons y ys =>
      rw [List.cons_append, hxs, rfold, ← hxs, ih, pure_bind]
      rfl

/-- read the vector along an axis -/
theorem readLine_eq {a : Arr α} (hw : a.WF) {k : Nat} (hk : k < a.shape.length) {idx : List Nat}
    (h : InB (a.shape.eraseIdx k) idx) :
    readLine a (strides a.shape) k (a.shape.getD k 0) idx = .ok (a.line k idx) ∧
      (a.line k idx).length = a.shape.getD k 0 ∧
      ∀ i, i < a.shape.getD k 0 → InB a.shape (idx.insertIdx k i) ∧ (a.line k idx)[i]? = a.get? (idx.insertIdx k i) := by
  have hlen : idx.length = a.shape.length - 1 := by
    have := h.length_eq
    rw [List.length_eraseIdx, if_pos hk] at this
    exact this
  have hin : ∀ i, i < a.shape.getD k 0 → InB a.shape (idx.insertIdx k i) := by
    intro i hi
    rw [InB_iff] at h ⊢
    refine ⟨by rw [List.length_insertIdx, if_pos (by omega)]; omega, ?_⟩
    intro j hj
    rw [getD_insertIdx _ _ _ _ (by omega)]
    have h2 := h.2
    rw [List.length_eraseIdx, if_pos hk] at h2
    split
    · rename_i hjk
      have := h2 j (by omega)
      rwa [getD_eraseIdx, if_neg (by omega)] at this
    · split
      · rename_i hjk; rw [hjk]; exact hi
      · have := h2 (j - 1) (by omega)
        rwa [getD_eraseIdx, if_pos (by omega), Nat.sub_add_cancel (by omega)] at this
  have hget : ∀ i, i < a.shape.getD k 0 → ∃ v, a.get? (idx.insertIdx k i) = some v ∧
      sliceAt a.data (icIndex (strides a.shape) (idx.take k ++ i :: idx.drop k)) = .ok v := by
    intro i hi
    have hb := hin i hi
    have hlt : flat a.shape (idx.insertIdx k i) < a.data.length := by rw [hw]; exact flat_lt hb
    refine ⟨a.data[flat a.shape (idx.insertIdx k i)], ?_, ?_⟩
    · rw [Arr.get?_of_inB hb]; simp [hlt]
    · rw [← insertIdx_take_drop _ _ _ (by omega), icIndex_strides hb.length_eq]
      exact sliceAt_ok hlt
  have hx : ∀ n, n ≤ a.shape.getD k 0 → ∃ vs : List α, vs.length = n ∧
      (List.range n).filterMap (fun i => a.get? (idx.insertIdx k i)) = vs ∧
      (∀ i, i < n → vs[i]? = a.get? (idx.insertIdx k i)) := by
    intro n
    induction n with
    | zero => intro _; exact ⟨[], rfl, rfl, by simp⟩
    | succ n ih =>
      intro hn
      obtain ⟨vs, h1, h2, h3⟩ := ih (by omega)
      obtain ⟨v, hv, _⟩ := hget n (by omega)
      refine ⟨vs ++ [v], by simp [h1], ?_, ?_⟩
      · rw [List.range_succ, List.filterMap_append, h2]; simp [hv]
      · intro i hi
        rw [List.getElem?_append]
        split
        · exact h3 i (by omega)
        · have : i = n := by omega
          subst this
          simp [h1, hv]
  obtain ⟨vs, h1, h2, h3⟩ := hx _ (Nat.le_refl _)
  have hline : a.line k idx = vs := h2
  refine ⟨?_, by rw [hline, h1], fun i hi => ⟨hin i hi, by rw [hline]; exact h3 i hi⟩⟩
  obtain ⟨d, e1, e2, e3⟩ := forLoop_ex (body := fun i => sliceAt a.data (icIndex (strides a.shape) (idx.take k ++ i :: idx.drop k)))
    (a.shape.getD k 0) (fun i hi => by obtain ⟨v, _, hv⟩ := hget i hi; exact ⟨v, hv⟩)
  unfold readLine
  rw [e1, hline]
  congr 1
  apply List.ext_getElem?
  intro i
  by_cases hi : i < a.shape.getD k 0
  · obtain ⟨v, hv, hd⟩ := e3 i hi
    obtain ⟨v', hv', hs⟩ := hget i hi
    rw [hs] at hv; cases hv
    rw [hd, h3 i hi, hv']
  · rw [List.getElem?_eq_none (by omega), List.getElem?_eq_none (by omega)]

/-- writes that cover every position of an array of shape `t` exactly with the values `g` -/
theorem applySets_cover {β} {t : List Nat} (d : List β) (hd : d.length = size t) (ws : List (Nat × β)) (g : List Nat → β)
    (hall : ∀ w ∈ ws, ∃ idx, InB t idx ∧ w = (flat t idx, g idx))
    (hcov : ∀ idx, InB t idx → (flat t idx, g idx) ∈ ws) :
    applySets d ws = (allIdx t).map g := by
  apply List.ext_getElem?
  intro p
  by_cases hp : p < size t
  · have hb := unflat_inB hp
    have h1 := applySets_get d ws p (g (unflat t p)) (by omega) (by
      intro w hw he
      obtain ⟨idx, hi, hwe⟩ := hall w hw
      subst hwe
      simp only at he ⊢
      rw [← he, unflat_flat hi]) ⟨_, hcov _ hb, flat_unflat hp⟩
    rw [h1, allIdx_eq, List.map_map, List.getElem?_map, List.getElem?_range hp]
    rfl
  · rw [List.getElem?_eq_none (by rw [applySets_length]; omega), List.getElem?_eq_none (by simp [allIdx_length]; omega)]

theorem noNil_map_some (l : List α) : noNil (l.map some) = .ok l := by
  unfold noNil
  induction l with
  | nil => rfl
  | cons x xs ih =>
    simp only [List.map_cons, List.mapM_cons, ih]
    rfl

theorem applySets_append {β} (d : List β) (u v : List (Nat × β)) : applySets d (u ++ v) = applySets (applySets d u) v := by
  simp [applySets]

theorem foldl_applySets {β γ} (l : List γ) (w : γ → List (Nat × β)) (d : List β) :
    l.foldl (fun d x => applySets d (w x)) d = applySets d (l.flatMap w) := by
  induction l generalizing d with
  | nil => rfl
  | cons x xs ih => simp [ih, applySets_append]

end ex

end Iv

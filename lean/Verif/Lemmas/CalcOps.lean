import Verif.Lemmas.CalcAct
import Verif.Props.Ops
import Verif.Lemmas.Rank
/-
C92: running scans and each.
-/
namespace Iv
variable {D H : Type}

theorem does_bind_inv {ρ σ : Type} (sys : Sys D H) {p : Act D H ρ} {f : ρ → Act D H σ} {s s2 : St D H} {w}
    (h : Does sys (p.bind f) s w s2) : ∃ v s1, Does sys p s v s1 ∧ Does sys (f v) s1 w s2 := by
  unfold Does at h
  have : (fun n => runAct (run sys n) (p.bind f)) = (fun n => runAct (run sys n) p >>= fun v => runAct (run sys n) (f v)) := by
    funext n; exact runAct_bind _ _ _
  rw [this] at h
  rcases (yields_bind (mono_runAct sys p) (fun a => mono_runAct sys (f a)) s _ s2).mp h with ⟨v, s1, h1, h2⟩ | ⟨e, h1, h2⟩
  · exact ⟨v, s1, h1, h2⟩
  · cases h1

theorem does_ret_inv {ρ : Type} (sys : Sys D H) {v w : ρ} {s s' : St D H} (h : Does sys (.ret (.ok v)) s w s') : w = v ∧ s' = s := by
  obtain ⟨n, hn⟩ := h
  have h1 : (some (.ok v, s) : Option (Except Fail ρ × St D H)) = some (.ok w, s') := hn
  simp only [Option.some.injEq, Prod.mk.injEq, Except.ok.injEq] at h1
  exact ⟨h1.1.symm, h1.2.symm⟩

theorem doesE_bind_inv {ρ σ : Type} (sys : Sys D H) {p : ExceptT Fail (Act D H) ρ} {f : ρ → ExceptT Fail (Act D H) σ} {s s2 : St D H} {w}
    (h : DoesE sys (p >>= f) s w s2) : ∃ v s1, DoesE sys p s v s1 ∧ DoesE sys (f v) s1 w s2 := by
  unfold DoesE at h
  obtain ⟨v, s1, h1, h2⟩ := does_bind_inv (p := p.run) (f := fun x => ExceptT.bindCont f x) sys h
  cases v with
  | ok v => exact ⟨v, s1, h1, h2⟩
  | error x =>
    obtain ⟨h3, _⟩ := does_ret_inv (v := (.error x : Except Fail σ)) sys h2
    cases h3

theorem doesE_pure_inv {ρ : Type} (sys : Sys D H) {v w : ρ} {s s' : St D H} (h : DoesE sys (pure v) s w s') : w = v ∧ s' = s := by
  obtain ⟨h1, h2⟩ := does_ret_inv (v := (.ok v : Except Fail ρ)) sys h
  cases h1
  exact ⟨rfl, h2⟩

theorem doesE_mapM_length {α β : Type} (sys : Sys D H) (h : α → ExceptT Fail (Act D H) β) : ∀ {l : List α} {s s' : St D H} {ds : List β},
    DoesE sys (l.mapM h) s ds s' → ds.length = l.length := by
  intro l
  induction l with
  | nil => intro s s' ds hd; rw [List.mapM_nil] at hd; rw [(doesE_pure_inv sys hd).1]; rfl
  | cons x l ih =>
    intro s s' ds hd
    rw [List.mapM_cons] at hd
    obtain ⟨v, s1, _, h2⟩ := doesE_bind_inv sys hd
    obtain ⟨vs, s2, h3, h4⟩ := doesE_bind_inv sys h2
    rw [(doesE_pure_inv sys h4).1, List.length_cons, ih h3, List.length_cons]

theorem doesE_flatMap {α β γ : Type} (sys : Sys D H) (g : α → List γ) (h : γ → ExceptT Fail (Act D H) β) :
    ∀ {l : List α} {s s' : St D H} {ds : List β}, DoesE sys ((l.flatMap g).mapM h) s ds s' →
      ∃ rows : List (List β), DoesE sys (l.mapM (fun x => (g x).mapM h)) s rows s' ∧ rows.flatten = ds ∧
        List.Forall₂ (fun x (r : List β) => r.length = (g x).length) l rows := by
  intro l
  induction l with
  | nil =>
    intro s s' ds hd
    rw [List.flatMap_nil, List.mapM_nil] at hd
    obtain ⟨rfl, rfl⟩ := doesE_pure_inv sys hd
    exact ⟨[], doesE_pure sys _ _, rfl, .nil⟩
  | cons x l ih =>
    intro s s' ds hd
    rw [List.flatMap_cons, List.mapM_append] at hd
    obtain ⟨v, s1, h1, h2⟩ := doesE_bind_inv sys hd
    obtain ⟨vs, s2, h3, h4⟩ := doesE_bind_inv sys h2
    obtain ⟨rfl, rfl⟩ := doesE_pure_inv sys h4
    obtain ⟨rows, r1, r2, r3⟩ := ih h3
    refine ⟨v :: rows, ?_, by rw [List.flatten_cons, r2], .cons (doesE_mapM_length sys h h1) r3⟩
    rw [List.mapM_cons]
    exact doesE_bind sys h1 (doesE_bind sys r1 (doesE_pure sys _ _))

/-- rows along the last axis, put together -/
theorem ofLines_last {α : Type} (ls : List Nat) (n : Nat) (rows : List (List α)) (hr : rows.length = size ls) (hrow : ∀ r ∈ rows, r.length = n) :
    Arr.ofLines (ls ++ [n]) ls.length rows = ⟨ls ++ [n], rows.flatten⟩ := by
  have hE : ∀ (m : Nat) (idx : List Nat), idx.length = ls.length → (idx ++ [m]).eraseIdx ls.length = idx := by
    intro m idx hl
    rw [List.eraseIdx_append_of_length_le (by omega), hl, Nat.sub_self]; simp
  have hk : ls.length < (ls ++ [n]).length := by simp
  have hg : (ls ++ [n]).getD ls.length 0 = n := by simp
  obtain ⟨h1, h2⟩ := ofLines_spec hk rows (by rw [hE n ls rfl]; exact hr) (by rw [hg]; exact hrow)
  have hd : (Arr.ofLines (ls ++ [n]) ls.length rows).data = rows.flatten := by
    have hl1 : (Arr.ofLines (ls ++ [n]) ls.length rows).data.length = size ls * n := by
      rw [h1]
      show size (ls ++ [n]) = _
      rw [size_append]; simp [size]
    have hl2 : rows.flatten.length = size ls * n := by rw [flatten_length' rows n hrow, hr]
    apply List.ext_getElem?
    intro i
    by_cases hi : i < size ls * n
    · have hn : 0 < n := by
        rcases Nat.eq_zero_or_pos n with h | h
        · subst h; omega
        · exact h
      have hq : i / n < size ls := by rw [Nat.div_lt_iff_lt_mul hn]; exact hi
      have hin := unflat_inB hq
      have hm : i % n < n := Nat.mod_lt _ hn
      have hidx : InB (ls ++ [n]) (unflat ls (i / n) ++ [i % n]) := (InB_append hin.length_eq).mpr ⟨hin, hm, trivial⟩
      have h3 := h2 _ hidx
      have hll : (unflat ls (i / n)).length = ls.length := hin.length_eq
      rw [Arr.get?_of_inB (show InB (Arr.ofLines (ls ++ [n]) ls.length rows).shape _ from hidx)] at h3
      have hf : flat (ls ++ [n]) (unflat ls (i / n) ++ [i % n]) = i := by
        rw [flat_append hll, flat_unflat hq, Nat.mul_comm]; exact Nat.div_add_mod i n
      have hf' : flat (Arr.ofLines (ls ++ [n]) ls.length rows).shape (unflat ls (i / n) ++ [i % n]) = i := hf
      rw [hf', hE n ls rfl, hE _ _ hll, flat_unflat hq] at h3
      have h4 : (unflat ls (i / n) ++ [i % n]).getD ls.length 0 = i % n := by rw [← hll]; simp
      rw [h3, h4, ← flatten_get rows n hrow (i / n) (i % n) hm, Nat.mul_comm (i / n) n, Nat.div_add_mod]
    · rw [List.getElem?_eq_none (by omega), List.getElem?_eq_none (by omega)]
  show (⟨ls ++ [n], (Arr.ofLines (ls ++ [n]) ls.length rows).data⟩ : Arr α) = _
  rw [hd]

variable {V O : Type} (e : StdEnv V O) (sys : Sys (AVal V O) H)

/-- the prefixes of a list -/
def itemPrefixes {α : Type} (xs : List α) : List (List α) := (List.range xs.length).map (fun i => xs.take (i + 1))

theorem prefixFolds_map {m : Type → Type} [Monad m] [LawfulMonad m] {α : Type} (f : α → α → ExceptT Fail m α) (xs : List α) :
    prefixFolds f xs = (itemPrefixes xs).mapM (rfold f) := by
  unfold prefixFolds itemPrefixes
  rw [mapM_map']

/-- a scan of the rows -/
theorem scan_rows (f : Func (AVal V O)) (k : Kind) (ls : List Nat) (n : Nat) (d : List (UItem V O)) (hd : d ≠ [])
    (hw : (⟨ls ++ [n], d⟩ : Arr (UItem V O)).WF) {s s' : St (AVal V O) H} {ds : List (UItem V O)}
    (h : DoesE sys (((rowGroups n d).flatMap itemPrefixes).mapM (rfold (callItem f))) s ds s') :
    Does sys (e.scanAct f (.arr k ⟨ls ++ [n], d⟩)) s (.data (.arr (e.kind ds) ⟨ls ++ [n], ds⟩)) s' := by
  unfold StdEnv.scanAct
  have hdl : d.length = size ls * n := by
    have : d.length = size (ls ++ [n]) := hw
    rw [this, size_append]; simp [size]
  have hpos : 0 < d.length := List.length_pos_iff.2 hd
  have hn : 0 < n := by
    rcases Nat.eq_zero_or_pos n with h | h
    · subst h; omega
    · exact h
  have hgl : (rowGroups n d).length = size ls := by
    unfold rowGroups
    rw [List.length_map, List.length_range, hdl, Nat.mul_div_cancel _ hn]
  have hg : ∀ r ∈ rowGroups n d, r.length = n := by
    intro r hr
    unfold rowGroups at hr
    obtain ⟨i, hi, rfl⟩ := List.mem_map.1 hr
    rw [List.mem_range, hdl, Nat.mul_div_cancel _ hn] at hi
    rw [List.length_take, List.length_drop, hdl]
    have : i * n + n ≤ size ls * n := by
      calc i * n + n = (i + 1) * n := by rw [Nat.add_mul, Nat.one_mul]
        _ ≤ _ := Nat.mul_le_mul_right _ hi
    omega
  rcases List.eq_nil_or_concat' ls with rfl | ⟨_, _, hls⟩
  · have hdn : d.length = n := by simpa [size] using hdl
    subst hdn
    have hr1 : rowGroups d.length d = [d] := by
      unfold rowGroups
      rw [Nat.div_self hpos]
      simp
    rw [hr1, List.flatMap_cons, List.flatMap_nil, List.append_nil] at h
    have hlen := doesE_mapM_length sys _ h
    rw [show ([] ++ [d.length] : List Nat) = [d.length] from rfl, C26_vector e.kind (callItem f) k d hd (-1) (by unfold RedAxis; simp),
      prefixFolds_map]
    have hl : ds.length = d.length := by rw [hlen]; simp [itemPrefixes]
    rw [← hl]
    exact does_bind sys (doesE_bind sys h (doesE_pure sys _ s')) (does_ret sys _ _)
  · have h0 : 0 < ls.length := by rw [hls]; simp
    have hE : (ls ++ [n]).eraseIdx ls.length = ls := by
      rw [List.eraseIdx_append_of_length_le (Nat.le_refl _), Nat.sub_self]; simp
    obtain ⟨rows, r1, r2, r3⟩ := doesE_flatMap sys _ _ h
    rw [C26_axis e.kind (callItem f) k ⟨ls ++ [n], d⟩ hw (by show 2 ≤ (ls ++ [n]).length; simp; omega) (-1) ls.length
      (by unfold RedAxis; simp) (by simpa using hn)]
    simp only [hE]
    have hm : (allIdx ls).mapM (fun idx => prefixFolds (callItem (H := H) f) ((⟨ls ++ [n], d⟩ : Arr (UItem V O)).line ls.length idx)) =
        (rowGroups n d).mapM (fun x => (itemPrefixes x).mapM (rfold (callItem f))) := by
      rw [← lines_last ⟨ls ++ [n], d⟩ hw ls n hn rfl, mapM_map']
      congr 1
      funext idx
      exact prefixFolds_map _ _
    rw [hm]
    have hrl : rows.length = size ls := by rw [← r3.length_eq, hgl]
    have hrow : ∀ r ∈ rows, r.length = n := by
      have h3 : List.Forall₂ (fun x (r : List (UItem V O)) => x.length = n → r.length = n) (rowGroups n d) rows :=
        r3.imp (fun x r hx hn => by rw [hx]; simp [itemPrefixes, hn])
      clear r1 r2 r3 hrl hgl hm h hE
      generalize rowGroups n d = gs at h3 hg
      induction h3 with
      | nil => simp
      | cons hx _ ih =>
        intro r hr
        rcases List.mem_cons.1 hr with rfl | hr
        · exact hx (hg _ (by simp))
        · exact ih (fun r hr => hg r (by simp [hr])) r hr
    have hof := ofLines_last ls n rows hrl hrow
    refine does_bind sys (doesE_bind sys r1 (doesE_pure sys _ s')) ?_
    rw [hof, r2]
    exact does_ret sys _ _

/-- a call of each -/
def callPair (f : Func (AVal V O)) (p : Option (UItem V O) × UItem V O) : ExceptT Fail (Act (AVal V O) H) (UItem V O) := callEl (callVal f) p.1 p.2

/-- a function whose result is an element -/
theorem callPair_does (f : Func (AVal V O)) (l : Option (UItem V O)) (y z : UItem V O) {s s' : St (AVal V O) H}
    (h : Evals sys (.call f ((l.map .scalar).map .data) (.data (.scalar y))) s (.ok (.data (.scalar z))) s') :
    DoesE sys (callPair f (l, y)) s z s' := by
  unfold callPair callEl
  refine doesE_bind sys (v := (.scalar z : AVal V O)) (s1 := s') ?_ (doesE_pure sys _ _)
  unfold callVal
  exact does_call sys h (does_ret sys _ _)

theorem callVal_does (f : Func (AVal V O)) (l : Option (AVal V O)) (y z : AVal V O) {s s' : St (AVal V O) H}
    (h : Evals sys (.call f (l.map .data) (.data y)) s (.ok (.data z)) s') : DoesE sys (callVal f l y) s z s' := by
  unfold callVal
  exact does_call sys h (does_ret sys _ _)

theorem each_none (f : Func (AVal V O)) (k : Kind) (a : Arr (UItem V O)) (hw : a.WF) (hs : a.shape ≠ []) (hne : a.data ≠ [])
    {s s' : St (AVal V O) H} {ds : List (UItem V O)} (h : DoesE sys ((a.data.map (fun y => (none, y))).mapM (callPair f)) s ds s') :
    Does sys (e.eachAct f none (.arr k a)) s (.data (.arr (e.kind ds) ⟨a.shape, ds⟩)) s' := by
  unfold StdEnv.eachAct
  simp only
  rw [(C29_each_monadic e.kind (callVal f) k a hw hs hne).1]
  rw [mapM_map'] at h
  exact does_bind sys (doesE_bind sys h (doesE_pure sys _ s')) (does_ret sys _ _)

theorem each_both (f : Func (AVal V O)) (k k' : Kind) (a b : Arr (UItem V O)) (ha : a.WF) (hb : b.WF) (hs : a.shape = b.shape) (hr : a.shape ≠ [])
    (hne : a.data ≠ []) {s s' : St (AVal V O) H} {ds : List (UItem V O)}
    (h : DoesE sys ((List.zipWith (fun x y => (some x, y)) a.data b.data).mapM (callPair f)) s ds s') :
    Does sys (e.eachAct f (some (.arr k a)) (.arr k' b)) s (.data (.arr (e.kind ds) ⟨b.shape, ds⟩)) s' := by
  unfold StdEnv.eachAct
  simp only
  rw [C29_each_dyadic e.kind (callVal f) k k' a b ha hb hs hr hne]
  have hz : List.zipWith (fun x y => (some x, y)) a.data b.data = (a.data.zip b.data).map (fun p => (some p.1, p.2)) := by
    rw [List.zip, List.map_zipWith]
  rw [hz, mapM_map'] at h
  exact does_bind sys (doesE_bind sys h (doesE_pure sys _ s')) (does_ret sys _ _)

theorem each_left (f : Func (AVal V O)) (k : Kind) (a : Arr (UItem V O)) (x : UItem V O) (ha : a.WF) (hr : a.shape ≠ []) (hne : a.data ≠ [])
    {s s' : St (AVal V O) H} {ds : List (UItem V O)} (h : DoesE sys ((a.data.map (fun y => (some x, y))).mapM (callPair f)) s ds s') :
    Does sys (e.eachAct f (some (.scalar x)) (.arr k a)) s (.data (.arr (e.kind ds) ⟨a.shape, ds⟩)) s' := by
  unfold StdEnv.eachAct
  simp only
  rw [(C29_each_scalar e.kind (callVal f) k a x ha hr hne).1]
  rw [mapM_map'] at h
  exact does_bind sys (doesE_bind sys h (doesE_pure sys _ s')) (does_ret sys _ _)

theorem each_right (f : Func (AVal V O)) (k : Kind) (a : Arr (UItem V O)) (y : UItem V O) (ha : a.WF) (hr : a.shape ≠ []) (hne : a.data ≠ [])
    {s s' : St (AVal V O) H} {ds : List (UItem V O)} (h : DoesE sys ((a.data.map (fun x => (some x, y))).mapM (callPair f)) s ds s') :
    Does sys (e.eachAct f (some (.arr k a)) (.scalar y)) s (.data (.arr (e.kind ds) ⟨a.shape, ds⟩)) s' := by
  unfold StdEnv.eachAct
  simp only
  rw [(C29_each_scalar e.kind (callVal f) k a y ha hr hne).2.1]
  rw [mapM_map'] at h
  exact does_bind sys (doesE_bind sys h (doesE_pure sys _ s')) (does_ret sys _ _)

end Iv

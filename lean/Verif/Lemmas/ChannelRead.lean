import Verif.Lemmas.ChannelRun
import Mathlib.Data.List.Induction
/-
Readers of a channel.
-/
namespace Iv
variable {V : Type}

/-- a reader that has not left its loop -/
def foldMore {A : Type} (g : A → V → Next A) (a : A) : List V → Option A
  | [] => some a
  | v :: vs =>
    match g a v with
    | .more a' => foldMore g a' vs
    | .stop _ => none

theorem foldMore_snoc {A : Type} (g : A → V → Next A) (a b b' : A) (vs : List V) (v : V) (h : foldMore g a vs = some b) (hg : g b v = .more b') :
    foldMore g a (vs ++ [v]) = some b' := by
  induction vs generalizing a with
  | nil => simp [foldMore] at h; subst h; simp [foldMore, hg]
  | cons u us ih =>
    simp only [foldMore, List.cons_append] at h ⊢
    cases hu : g a u with
    | more a' => rw [hu] at h; exact ih _ h
    | stop a' => rw [hu] at h; cases h

/-- what a reader has read -/
def ReadInv {A : Type} (g : A → V → Next A) (P : Pipe V) (a : A) : Proc V × ReadSt A → Prop
  | (p, .read b) => ∃ vs, Reach P vs false p ∧ foldMore g a vs = some b
  | (p, .close b) => Result p b
  | (p, .drain b) => (∃ q, Result q b) ∧ ∃ vs, Reach P vs true p
  | (p, .fin b) => (∃ q, Result q b) ∧ (∃ vs, Reach P vs true p) ∧ p.closed
where
  Result (p : Proc V) (b : A) : Prop := ∃ vs, Reach P vs false p ∧
    ((p.closed ∧ foldMore g a vs = some b) ∨ ∃ us v b', vs = us ++ [v] ∧ foldMore g a us = some b' ∧ g b' v = .stop b)

theorem reads_inv {A : Type} (g : A → V → Next A) (P : Pipe V) (a : A) (s : Proc V × ReadSt A) (h : Reads g P a s) : ReadInv g P a s := by
  induction h with
  | start => exact ⟨[], .start, rfl⟩
  | step h hs ih =>
    cases hs with
    | tau p p' r hs =>
      cases r with
      | read b => obtain ⟨vs, hr, e⟩ := ih; exact ⟨vs, .tau hr hs, e⟩
      | close b =>
        obtain ⟨vs, hr, hc⟩ := ih
        exact ⟨vs, .tau hr hs, hc.imp (fun h => ⟨(closed_step _ _ _ hs h.1).2, h.2⟩) id⟩
      | drain b => obtain ⟨hq, vs, hr⟩ := ih; exact ⟨hq, vs, .tau hr hs⟩
      | fin b => obtain ⟨hq, ⟨vs, hr⟩, hc⟩ := ih; exact ⟨hq, ⟨vs, .tau hr hs⟩, (closed_step _ _ _ hs hc).2⟩
    | more p p' v b b' hs hg =>
      obtain ⟨vs, hr, e⟩ := ih
      exact ⟨vs ++ [v], .out hr hs, foldMore_snoc g a b b' vs v e hg⟩
    | stop p p' v b b' hs hg =>
      obtain ⟨vs, hr, e⟩ := ih
      exact ⟨vs ++ [v], .out hr hs, .inr ⟨vs, v, b, rfl, e, hg⟩⟩
    | eof p b hc =>
      obtain ⟨vs, hr, e⟩ := ih
      exact ⟨vs, hr, .inl ⟨hc, e⟩⟩
    | close p b hc =>
      have ih' := ih
      obtain ⟨vs, hr, e⟩ := ih
      exact ⟨⟨p, ih'⟩, vs, .cancel hr⟩
    | drain p p' v b hs =>
      obtain ⟨hq, vs, hr⟩ := ih
      exact ⟨hq, vs, .drain hr hs⟩
    | fin p b hc =>
      obtain ⟨hq, vs, hr⟩ := ih
      exact ⟨hq, ⟨vs, hr⟩, hc⟩

/-! ### The fold of `reduceChannel` -/

variable {E : Type}

theorem foldValues_snoc (f : V → V → Except E V) (us : List V) (v : V) :
    foldValues f (us ++ [v]) = (foldValues f us >>= fun r => match r with | none => .ok (some v) | some r => (f r v).map some) := by
  cases us with
  | nil => rfl
  | cons u us =>
    simp only [List.cons_append, foldValues, List.foldlM_append]
    cases List.foldlM f u us with
    | error e => rfl
    | ok w =>
      simp only [bind, Except.bind, Except.map, List.foldlM_cons, List.foldlM_nil, pure, Except.pure]
      cases f w v <;> rfl

theorem foldValues_error (f : V → V → Except E V) (us ws : List V) (e : E) (h : foldValues f us = .error e) : foldValues f (us ++ ws) = .error e := by
  cases us with
  | nil => cases h
  | cons u us =>
    simp only [List.cons_append, foldValues, List.foldlM_append] at h ⊢
    cases h' : List.foldlM f u us with
    | error e' => rw [h'] at h; simp only [Except.map] at h; cases h; rfl
    | ok w => rw [h'] at h; cases h

theorem foldMore_reduce (f : V → V → Except E V) (vs : List V) (b : Except E (Option V)) (a : List V) (ra : Except E (Option V))
    (ha : foldValues f a = ra) (h : foldMore (reduceStep f) ra vs = some b) : foldValues f (a ++ vs) = b := by
  induction vs generalizing a ra with
  | nil => simp only [foldMore, Option.some.injEq] at h; rw [List.append_nil, ha, h]
  | cons v vs ih =>
    simp only [foldMore] at h
    cases hg : reduceStep f ra v with
    | stop _ => rw [hg] at h; cases h
    | more a' =>
      rw [hg] at h
      have := ih (a ++ [v]) a' ?_ h
      · rw [List.append_assoc] at this; exact this
      · rw [foldValues_snoc, ha]
        match ra with
        | .error e => simp [reduceStep] at hg
        | .ok none => simp [reduceStep] at hg; subst hg; rfl
        | .ok (some r) =>
          simp only [reduceStep] at hg
          simp only [bind, Except.bind]
          cases hf : f r v with
          | ok w => rw [hf] at hg; simp at hg; subst hg; rfl
          | error e => rw [hf] at hg; simp at hg

theorem stop_reduce (f : V → V → Except E V) (us : List V) (v : V) (b b' : Except E (Option V)) (h : foldValues f us = b)
    (hg : reduceStep f b v = .stop b') : foldValues f (us ++ [v]) = b' ∧ ∃ e, b' = .error e := by
  rw [foldValues_snoc, h]
  match b with
  | .error e => simp only [reduceStep] at hg; cases hg; exact ⟨rfl, e, rfl⟩
  | .ok none => simp [reduceStep] at hg
  | .ok (some r) =>
    simp only [reduceStep] at hg
    simp only [bind, Except.bind]
    cases hf : f r v with
    | ok w => rw [hf] at hg; simp at hg
    | error e => rw [hf] at hg; simp at hg; subst hg; exact ⟨rfl, e, rfl⟩

/-! ### The folds of `scanChannel` -/

theorem running_get (f : V → V → Except E V) (v : V) (vs : List V) (n : Nat) (ws : List V)
    (h : (List.range (n + 1)).mapM (fun i => (vs.take i).foldlM f v) = .ok ws) : (vs.take n).foldlM f v = .ok (ws.getLast?.getD v) ∧ ws ≠ [] := by
  rw [List.range_succ, List.mapM_append] at h
  cases h1 : (List.range n).mapM (fun i => (vs.take i).foldlM f v) with
  | error e => rw [h1] at h; cases h
  | ok l =>
    rw [h1] at h
    simp only [bind, Except.bind, List.mapM_cons, List.mapM_nil, pure, Except.pure] at h
    cases h2 : (vs.take n).foldlM f v with
    | error e => rw [h2] at h; cases h
    | ok w =>
      rw [h2] at h
      simp only [Except.ok.injEq] at h
      subst h
      simp

theorem running_snoc (f : V → V → Except E V) (us : List V) (v : V) :
    runningFolds f (us ++ [v]) = (runningFolds f us >>= fun vec =>
      match vec.getLast? with | none => .ok [v] | some r => (f r v).map (fun w => vec ++ [w])) := by
  cases us with
  | nil => simp [runningFolds, bind, Except.bind, pure, Except.pure]
  | cons u us =>
    simp only [List.cons_append, runningFolds]
    rw [List.length_append, List.length_singleton, List.range_succ, List.mapM_append]
    have e1 : (List.range (us.length + 1)).mapM (fun i => ((us ++ [v]).take i).foldlM f u) =
        (List.range (us.length + 1)).mapM (fun i => (us.take i).foldlM f u) := by
      apply mapM_congr_mem
      intro i hi
      rw [List.take_append_of_le_length (by simp at hi; omega)]
    rw [e1]
    cases hm : (List.range (us.length + 1)).mapM (fun i => (us.take i).foldlM f u) with
    | error e => rfl
    | ok ws =>
      obtain ⟨hl, hne⟩ := running_get f u us us.length ws hm
      rw [List.take_length] at hl
      simp only [bind, Except.bind, List.mapM_cons, List.mapM_nil, pure, Except.pure]
      rw [List.take_of_length_le (by simp), List.foldlM_append, hl]
      simp only [bind, Except.bind, List.foldlM_cons, List.foldlM_nil, pure, Except.pure]
      cases hw : ws.getLast? with
      | none => exact absurd (List.getLast?_eq_none_iff.1 hw) hne
      | some r =>
        simp only [Option.getD_some]
        cases f r v <;> rfl
where
  mapM_congr_mem {α β : Type} {f g : α → Except E β} {l : List α} (h : ∀ x ∈ l, f x = g x) : l.mapM f = l.mapM g := by
    induction l with
    | nil => rfl
    | cons x xs ih => rw [List.mapM_cons, List.mapM_cons, h x (by simp), ih (fun y hy => h y (by simp [hy]))]

theorem running_error (f : V → V → Except E V) (us ws : List V) (e : E) (h : runningFolds f us = .error e) : runningFolds f (us ++ ws) = .error e := by
  induction ws using List.reverseRecOn with
  | nil => rw [List.append_nil, h]
  | append_singleton ws w ih => rw [← List.append_assoc, running_snoc, ih]; rfl

theorem foldMore_scan (f : V → V → Except E V) (vs : List V) (b : Except E (List V)) (a : List V) (ra : Except E (List V))
    (ha : runningFolds f a = ra) (h : foldMore (scanStep f) ra vs = some b) : runningFolds f (a ++ vs) = b := by
  induction vs generalizing a ra with
  | nil => simp only [foldMore, Option.some.injEq] at h; rw [List.append_nil, ha, h]
  | cons v vs ih =>
    simp only [foldMore] at h
    cases hg : scanStep f ra v with
    | stop _ => rw [hg] at h; cases h
    | more a' =>
      rw [hg] at h
      have := ih (a ++ [v]) a' ?_ h
      · rw [List.append_assoc] at this; exact this
      · rw [running_snoc, ha]
        match ra with
        | .error e => simp [scanStep] at hg
        | .ok vec =>
          simp only [scanStep] at hg
          simp only [bind, Except.bind]
          cases hl : vec.getLast? with
          | none => rw [hl] at hg; simp only [Next.more.injEq] at hg; exact hg
          | some r =>
            rw [hl] at hg
            simp only at hg ⊢
            cases hf : f r v with
            | ok w => rw [hf] at hg; simp at hg; subst hg; rfl
            | error e => rw [hf] at hg; simp at hg

theorem stop_scan (f : V → V → Except E V) (us : List V) (v : V) (b b' : Except E (List V)) (h : runningFolds f us = b)
    (hg : scanStep f b v = .stop b') : runningFolds f (us ++ [v]) = b' ∧ ∃ e, b' = .error e := by
  rw [running_snoc, h]
  match b with
  | .error e => simp only [scanStep] at hg; cases hg; exact ⟨rfl, e, rfl⟩
  | .ok vec =>
    simp only [scanStep] at hg
    simp only [bind, Except.bind]
    cases hl : vec.getLast? with
    | none => rw [hl] at hg; simp at hg
    | some r =>
      rw [hl] at hg
      simp only at hg ⊢
      cases hf : f r v with
      | ok w => rw [hf] at hg; simp at hg
      | error e => rw [hf] at hg; simp at hg; subst hg; exact ⟨rfl, e, rfl⟩

/-! ### Readers end -/

/-- weight of the state of a reader -/
def ReadSt.weight {A : Type} : ReadSt A → Nat
  | .read _ => 3
  | .close _ => 2
  | .drain _ => 1
  | .fin _ => 0

theorem acc_reads {A : Type} (g : A → V → Next A) (p : Proc V) (h : Acc After p) (r : ReadSt A) : Acc (fun s' s => SysStep g s s') (p, r) := by
  induction h generalizing r with
  | intro p _ ih =>
    generalize hw : r.weight = n
    induction n using Nat.strongRecOn generalizing r with
    | _ n ihn =>
      refine ⟨_, fun s hs => ?_⟩
      cases hs with
      | tau _ p' _ hs => exact ih p' (.inl ⟨_, hs⟩) _
      | more _ p' v a a' hs _ => exact ih p' (.inl ⟨_, hs⟩) _
      | stop _ p' v a a' hs _ => exact ih p' (.inl ⟨_, hs⟩) _
      | eof _ a _ => exact ihn 2 (by simp [ReadSt.weight] at hw; omega) _ rfl
      | close _ a hc => exact ih _ (.inr ⟨hc, rfl⟩) _
      | drain _ p' v a hs => exact ih p' (.inl ⟨_, hs⟩) _
      | fin _ a _ => exact ihn 0 (by simp [ReadSt.weight] at hw; omega) _ rfl

theorem no_run {α : Type} (R : α → α → Prop) (x : α) (h : Acc R x) : ¬ ∃ r : Nat → α, r 0 = x ∧ ∀ i, R (r (i + 1)) (r i) := by
  induction h with
  | intro x _ ih =>
    rintro ⟨r, rfl, hr⟩
    exact ih _ (hr 0) ⟨fun i => r (i + 1), rfl, fun i => hr (i + 1)⟩

/-! ### When goroutines return -/

/-- a goroutine that has returned has asked those it reads from to stop, or they have returned before; with a left channel this is only true of
functions that do not fail -/
def StopInv : Proc V → Prop
  | .app _ _ st _ up => st = .done → up.cancelled = true ∨ up.closed
  | .app2 f _ st _ l up => (∀ a b, ∃ w, f a b = .ok w) → (st ≠ .failed ∧ (∀ v, st ≠ .sendErr v)) ∧
      (st = .done ∨ st = .stopLeft → up.cancelled = true ∨ up.closed) ∧ (st = .done → l.cancelled = true)
  | .scope _ st _ up => st = .done → up.cancelled = true ∨ up.closed
  | _ => True

theorem afterCall_done (s : V → Bool) (r : Except V V) : afterCall s r ≠ .done := by
  cases r with
  | error e => simp [afterCall]
  | ok w => simp only [afterCall]; split <;> simp

theorem closed1_cancelled (p : Proc V) : (closed1 p).cancelled = true := by
  unfold closed1
  split
  · assumption
  · cases p <;> rfl

theorem stop_step (p : Proc V) (l : Lab V) (p' : Proc V) (h : Step p l p') (hi : StopInv p) : StopInv p' := by
  have stop : ∀ up up' : Proc V, Step up .tau up' → up.cancelled = true ∨ up.closed → up'.cancelled = true ∨ up'.closed := fun up up' hs h =>
    h.imp (fun h => by rw [step_cancelled _ _ _ hs, h]) (fun h => (closed_step _ _ _ hs h).2)
  cases h <;> simp only [StopInv] at hi ⊢
  case appUp hs => exact fun h => stop _ _ hs (hi h)
  case appRecv => exact fun h => absurd h (afterCall_done _ _)
  case appEof h => exact fun _ => .inr h
  case appStop => exact fun _ => .inl (closed1_cancelled _)
  case appSend => simp
  case appErr => simp
  case appFail => exact fun _ => .inl (closed1_cancelled _)
  case scopeUp hs => exact fun h => stop _ _ hs (hi h)
  case scopeRecv => simp
  case scopeEof h => exact fun _ => .inr h
  case scopeStop => exact fun _ => .inl (closed1_cancelled _)
  case scopeSend => simp
  case scopeStopSend => exact fun _ => .inl (closed1_cancelled _)
  case app2Left hs => intro h; obtain ⟨h1, h2, h3⟩ := hi h; exact ⟨h1, h2, fun h => by rw [step_cancelled _ _ _ hs, h3 h]⟩
  case app2Up hs => intro h; obtain ⟨h1, h2, h3⟩ := hi h; exact ⟨h1, fun h => stop _ _ hs (h2 h), h3⟩
  case app2Recv => simp
  case app2Call f s c v w l l' up hs => exact fun h => call f s (some w) v h _ _
  case app2Nil f s c v l up hs => exact fun h => call f s none v h _ _
  case app2Eof h => exact fun _ => ⟨by simp, fun _ => .inr h, by simp⟩
  case app2Stop f s l up =>
    refine fun _ => ⟨?_, fun _ => .inl (closed1_cancelled _), ?_⟩ <;> unfold closing <;> split <;> simp
  case app2StopLeft f s c l up =>
    intro h
    refine ⟨?_, fun _ => (hi h).2.1 (.inr trivial), fun _ => closed1_cancelled _⟩
    unfold closing; split <;> simp
  case app2Send => simp
  case app2Err => intro h; exact absurd rfl ((hi h).1.2 _)
  case app2Fail => intro h; exact absurd rfl (hi h).1.1
where
  call (f : Option V → V → Except V V) (s : V → Bool) (a : Option V) (v : V) (h : ∀ a b, ∃ w, f a b = .ok w) (A B : Prop) :
      (afterCall s (f a v) ≠ .failed ∧ (∀ u, afterCall s (f a v) ≠ .sendErr u)) ∧
        (afterCall s (f a v) = .done ∨ afterCall s (f a v) = .stopLeft → A) ∧ (afterCall s (f a v) = .done → B) := by
    obtain ⟨w, e⟩ := h a v
    rw [e]
    simp only [afterCall]
    split <;> simp

theorem stop_cancel (p : Proc V) (h : StopInv p) : StopInv p.cancel := by
  cases p <;> exact h

theorem reach_stop (P : Pipe V) (vs : List V) (c : Bool) (p : Proc V) (h : Reach P vs c p) : StopInv p := by
  induction h with
  | start => cases P <;> simp [Pipe.start, StopInv]
  | tau _ hs ih => exact stop_step _ _ _ hs ih
  | out _ hs ih => exact stop_step _ _ _ hs ih
  | drain _ hs ih => exact stop_step _ _ _ hs ih
  | cancel _ ih => exact stop_cancel _ ih

/-- a source that has been asked to stop stops -/
theorem source_ends (P : Pipe V) (hP : P.Source) (vs : List V) (c : Bool) (p : Proc V) (h : Reach P vs c p) (hc : p.cancelled = true ∨ p.closed)
    (hn : ∀ q, ¬ Step p .tau q) : p.finished := by
  cases P with
  | values l =>
    obtain ⟨rest, d, rfl, _⟩ := src_inv l vs c p h
    cases d with
    | true => rfl
    | false =>
      rcases hc with hc | hc
      · simp only [Proc.cancelled] at hc
        subst hc
        cases rest with
        | nil => exact absurd (.srcEnd _) (hn _)
        | cons v rest => exact absurd (.srcStop _ _) (hn _)
      · cases hc
  | textLines l =>
    obtain ⟨rest, d, rfl, _⟩ := lines_inv l vs c p h
    cases d with
    | true => rfl
    | false =>
      rcases hc with hc | hc
      · simp only [Proc.cancelled] at hc
        subst hc
        cases rest with
        | nil => exact absurd (.lineEnd _) (hn _)
        | cons v rest => exact absurd (.lineDrop _ _) (hn _)
      · cases hc
  | forever v =>
    obtain ⟨d, _, rfl, _⟩ := rep_inv v vs c p h
    cases d with
    | true => rfl
    | false =>
      rcases hc with hc | hc
      · simp only [Proc.cancelled] at hc
        subst hc
        exact absurd (.repStop _) (hn _)
      · cases hc
  | each | each2 | printed | reshaped => exact absurd hP id

/-- a chain ends from its source -/
theorem chain_ends (P : Pipe V) (hP : P.Chain) (vs : List V) (p : Proc V) (h : Reach P vs false p) (hc : p.closed) : p.finished := by
  induction P generalizing vs p with
  | values l => obtain ⟨rest, d, rfl, _⟩ := src_inv l vs _ p h; exact hc
  | forever v => obtain ⟨d, _, rfl, _⟩ := rep_inv v vs _ p h; exact hc
  | textLines l => obtain ⟨rest, d, rfl, _⟩ := lines_inv l vs _ p h; exact hc
  | each f s P ih =>
    obtain ⟨st, us, c', up, ws, rfl, _, hr, hi⟩ := app_inv f s P vs _ p h
    have e : st = .done := hc
    subst e
    have nf : ∀ us : List V, (feed f s us).2 = false := by
      intro us
      induction us with
      | nil => rfl
      | cons u us ihu => obtain ⟨w, hw⟩ := hP.1 u; simp only [feed, hw]; exact ihu
    rcases hi with h1 | ⟨_, h2 | ⟨rfl, h2⟩⟩
    · have := nf us; rw [h1] at this; cases this
    · cases h2
    · exact ⟨rfl, ih hP.2 _ _ hr h2⟩
  | each2 => exact absurd hP id
  | printed P ih =>
    obtain ⟨st, us, c', up, ws, rfl, _, hr, hi⟩ := scope_inv P vs _ p h
    have e : st = .done := hc
    subst e
    rcases hi with ⟨h, _⟩ | ⟨_, rfl, h2⟩
    · cases h
    · exact ⟨rfl, ih hP _ _ hr h2⟩
  | reshaped n el m P ih =>
    obtain ⟨st, us, c', up, rfl, hr, hi⟩ := chunk_inv n hP.1 el m P vs _ p h
    have e : st = .done := hc
    subst e
    obtain ⟨rfl, g, _, _, b, _, _, h2⟩ := hi rfl
    exact ⟨rfl, ih hP.2 _ _ hr h2⟩

/-! ### Taking -/

theorem takes_inv (P : Pipe V) (vs : List V) (p : Proc V) (n : Nat) (h : Reach P vs false p) (s : Proc V × TakeSt V) (ht : Takes p n s) :
    match s with
    | (q, .take k ws) => Reach P (vs ++ ws) false q ∧ ws.length + k = n
    | (q, .fail) => ∃ ws, Reach P (vs ++ ws) false q ∧ q.closed ∧ ws.length < n := by
  induction ht with
  | start => exact ⟨by simpa using h, by simp⟩
  | step _ hs ih =>
    cases hs with
    | tau p p' r hs =>
      cases r with
      | take k ws => exact ⟨.tau ih.1 hs, ih.2⟩
      | fail => obtain ⟨ws, h1, h2, h3⟩ := ih; exact ⟨ws, .tau h1 hs, (closed_step _ _ _ hs h2).2, h3⟩
    | recv p p' v n ws hs =>
      refine ⟨?_, by simp; have := ih.2; omega⟩
      rw [← List.append_assoc]
      exact .out ih.1 hs
    | eof p n ws hc => exact ⟨ws, ih.1, hc, by have := ih.2; omega⟩

end Iv

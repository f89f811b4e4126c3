import Verif.SpecChannel
import Mathlib.Data.List.Induction
/-
Lemmas about trees of goroutines.
-/
namespace Iv
variable {V : Type}

theorem feed_nil {β} (f : β → Except V V) (s : V → Bool) : feed f s [] = ([], false) := rfl

theorem feed_append {β} (f : β → Except V V) (s : V → Bool) (us ws : List β) (h : (feed f s us).2 = false) :
    feed f s (us ++ ws) = ((feed f s us).1 ++ (feed f s ws).1, (feed f s ws).2) := by
  induction us with
  | nil => simp [feed]
  | cons u us ih =>
    simp only [List.cons_append, feed] at h ⊢
    cases e : f u with
    | error e' => rw [e] at h; simp at h
    | ok w =>
      rw [e] at h
      simp only at h ⊢
      rw [ih h]
      by_cases hs : s w <;> simp [hs]

theorem feed_append_stop {β} (f : β → Except V V) (s : V → Bool) (us ws : List β) (h : (feed f s us).2 = true) :
    feed f s (us ++ ws) = feed f s us := by
  induction us with
  | nil => simp [feed] at h
  | cons u us ih =>
    simp only [List.cons_append, feed] at h ⊢
    cases e : f u with
    | error e' => rfl
    | ok w =>
      rw [e] at h
      simp only at h ⊢
      rw [ih h]

/-- the effect of one more value -/
theorem feed_snoc {β} (f : β → Except V V) (s : V → Bool) (us : List β) (u : β) (vs : List V) (h : feed f s us = (vs, false)) :
    feed f s (us ++ [u]) = match f u with
      | .error e => (vs ++ [e], true)
      | .ok w => (if s w then vs else vs ++ [w], false) := by
  rw [feed_append f s us [u] (by rw [h]), h]
  simp only [feed]
  cases f u with
  | error e => rfl
  | ok w => by_cases hs : s w <;> simp [hs]

theorem feed_mono {β} (f : β → Except V V) (s : V → Bool) (us ws : List β) (h : us <+: ws) : (feed f s us).1 <+: (feed f s ws).1 := by
  obtain ⟨t, rfl⟩ := h
  cases e : (feed f s us).2 with
  | true => rw [feed_append_stop f s us t e]; exact List.prefix_refl _
  | false => rw [feed_append f s us t e]; exact List.prefix_append _ _

theorem pairs_snoc (ls us : List V) (u : V) : pairs ls (us ++ [u]) = pairs ls us ++ [(ls[us.length]?, u)] := by
  simp [pairs, List.zipIdx_append]

theorem pairs_length (ls us : List V) : (pairs ls us).length = us.length := by simp [pairs]

theorem pairs_get (ls us : List V) (i : Nat) : (pairs ls us)[i]? = us[i]?.map (fun u => (ls[i]?, u)) := by
  simp [pairs, List.getElem?_map, List.getElem?_zipIdx]
  cases us[i]? <;> simp

theorem pairs_left (ls us : List V) (w : V) (h : us.length ≤ ls.length) : pairs (ls ++ [w]) us = pairs ls us := by
  apply List.ext_getElem?
  intro i
  rw [pairs_get, pairs_get]
  by_cases hi : i < us.length
  · rw [List.getElem?_append_left (by omega)]
  · rw [List.getElem?_eq_none (by omega : us.length ≤ i)]; rfl

/-- a closed channel has no more values and stays closed -/
theorem closed_step (p : Proc V) (l : Lab V) (p' : Proc V) (h : Step p l p') (hc : p.closed) : l = .tau ∧ p'.closed := by
  cases h <;> simp_all [Proc.closed]

theorem closed_cancel (p : Proc V) : p.cancel.closed ↔ p.closed := by cases p <;> simp [Proc.cancel, Proc.closed]

theorem cancelled_cancel (p : Proc V) : p.cancel.cancelled = true := by cases p <;> rfl

theorem closing_ok {σ : Type} (n c : σ) (p : Proc V) (h : p.cancelled = false) : closing n c p = n ∧ closed1 p = p.cancel := by simp [closing, closed1, h]

theorem step_cancelled (p : Proc V) (l : Lab V) (p' : Proc V) (h : Step p l p') : p'.cancelled = p.cancelled := by
  cases h <;> simp [Proc.cancelled]

theorem reach_cancelled (P : Pipe V) (vs : List V) (c : Bool) (p : Proc V) (h : Reach P vs c p) : p.cancelled = c := by
  induction h with
  | start => cases P <;> rfl
  | tau _ hs ih => rw [step_cancelled _ _ _ hs, ih]
  | out _ hs ih => rw [step_cancelled _ _ _ hs, ih]
  | drain _ hs ih => rw [step_cancelled _ _ _ hs, ih]
  | cancel _ _ => exact cancelled_cancel _

/-- `ws` are the values sent if the reader has received `vs` (and thrown away the others after closing) -/
def Got (c : Bool) (vs ws : List V) : Prop := vs <+: ws ∧ (c = false → vs = ws)

theorem Got.refl (c : Bool) (vs : List V) : Got c vs vs := ⟨List.prefix_refl _, fun _ => rfl⟩

theorem Got.cancel {c : Bool} {vs ws : List V} (h : Got c vs ws) : Got true vs ws := ⟨h.1, by simp⟩

theorem Got.snoc {vs ws : List V} (h : Got false vs ws) (v : V) : Got false (vs ++ [v]) (ws ++ [v]) := by
  rw [h.2 rfl]; exact Got.refl _ _

theorem Got.drain {vs ws : List V} (h : Got true vs ws) (v : V) : Got true vs (ws ++ [v]) := ⟨h.1.trans (List.prefix_append _ _), by simp⟩

/-- The relation between the values received (`us`) and sent (`vs`) by the goroutine of `Apply`; `c'` tells if it has closed its source, `e` if
its source was closed before that. -/
def AppInv (f : V → Except V V) (s : V → Bool) (us vs : List V) (c c' : Bool) (up : Proc V) : StageSt V → Prop
  | .idle => feed f s us = (vs, false) ∧ c' = false
  | .got _ => False
  | .send v => feed f s us = (vs ++ [v], false) ∧ c' = false
  | .sendErr v => feed f s us = (vs ++ [v], true) ∧ c' = false
  | .failed => feed f s us = (vs, true) ∧ c' = false
  | .stopLeft => False
  | .done => feed f s us = (vs, true) ∨ (feed f s us = (vs, false) ∧ (c = true ∨ (c' = false ∧ up.closed)))
  | .crash => False

theorem appInv_up (f : V → Except V V) (s : V → Bool) (us vs : List V) (c c' : Bool) (up up' : Proc V) (st : StageSt V)
    (h : AppInv f s us vs c c' up st) (hu : up.closed → up'.closed) : AppInv f s us vs c c' up' st := by
  cases st <;> simp only [AppInv] at h ⊢ <;> try exact h
  rcases h with h | ⟨h1, h2 | h2⟩
  · exact .inl h
  · exact .inr ⟨h1, .inl h2⟩
  · exact .inr ⟨h1, .inr ⟨h2.1, hu h2.2⟩⟩

theorem app_inv (f : V → Except V V) (s : V → Bool) (P : Pipe V) (vs : List V) (c : Bool) (p : Proc V) (h : Reach (.each f s P) vs c p) :
    ∃ st us c' up ws, p = .app f s st c up ∧ Got c vs ws ∧ Reach P us c' up ∧ AppInv f s us ws c c' up st := by
  induction h with
  | start => exact ⟨.idle, [], false, _, [], rfl, .refl _ _, .start, rfl, rfl⟩
  | cancel h ih =>
    obtain ⟨st, us, c', up, ws, rfl, hw, hr, hi⟩ := ih
    refine ⟨st, us, c', up, ws, rfl, hw.cancel, hr, ?_⟩
    cases st <;> simp only [AppInv] at hi ⊢ <;> try exact hi
    rcases hi with h | ⟨h1, _⟩
    · exact .inl h
    · exact .inr ⟨h1, .inl trivial⟩
  | out h hs ih =>
    obtain ⟨st, us, c', up, ws, rfl, hw, hr, hi⟩ := ih
    cases hs with
    | appSend _ _ _ v _ => exact ⟨.idle, us, c', up, _, rfl, hw.snoc _, hr, hi⟩
    | appErr _ _ _ v _ => exact ⟨.failed, us, c', up, _, rfl, hw.snoc _, hr, hi⟩
  | drain h hs ih =>
    obtain ⟨st, us, c', up, ws, rfl, hw, hr, hi⟩ := ih
    cases hs with
    | appSend _ _ _ v _ => exact ⟨.idle, us, c', up, _, rfl, hw.drain _, hr, hi⟩
    | appErr _ _ _ v _ => exact ⟨.failed, us, c', up, _, rfl, hw.drain _, hr, hi⟩
  | tau h hs ih =>
    obtain ⟨st, us, c', up, ws, rfl, hw, hr, hi⟩ := ih
    cases hs with
    | appUp _ _ _ _ _ up' hs => exact ⟨st, us, c', up', ws, rfl, hw, .tau hr hs, appInv_up _ _ _ _ _ _ _ _ _ hi (fun hc => (closed_step _ _ _ hs hc).2)⟩
    | appRecv _ _ _ v _ up' hs =>
      refine ⟨_, us ++ [v], c', up', ws, rfl, hw, hi.2 ▸ .out (hi.2 ▸ hr) hs, ?_⟩
      have h3 := feed_snoc f s us v _ hi.1
      cases e : f v with
      | error e' => rw [e] at h3; exact ⟨h3, hi.2⟩
      | ok w =>
        rw [e] at h3
        simp only [afterCall]
        by_cases hw : s w
        · rw [if_pos hw]; simp only [hw, if_true] at h3; exact ⟨h3, hi.2⟩
        · rw [if_neg hw]; simp only [hw] at h3; exact ⟨by simpa using h3, hi.2⟩
    | appEof _ _ _ _ hc => exact ⟨.done, us, c', up, ws, rfl, hw, hr, .inr ⟨hi.1, .inr ⟨hi.2, hc⟩⟩⟩
    | appStop _ _ _ =>
      have hc := reach_cancelled _ _ _ _ hr
      rw [hi.2] at hc hr
      simp only [closing_ok _ _ _ hc, (closing_ok () () _ hc).2]
      exact ⟨.done, us, true, up.cancel, ws, rfl, hw, .cancel hr, .inr ⟨hi.1, .inl rfl⟩⟩
    | appFail _ _ _ _ =>
      have hc := reach_cancelled _ _ _ _ hr
      rw [hi.2] at hc hr
      simp only [closing_ok _ _ _ hc, (closing_ok () () _ hc).2]
      exact ⟨.done, us, true, up.cancel, ws, rfl, hw, .cancel hr, .inl hi.1⟩

/-- The same for `Scope`. -/
def ScopeInv (us vs : List V) (c c' : Bool) (up : Proc V) : StageSt V → Prop
  | .idle => us = vs ∧ c' = false
  | .send v => us = vs ++ [v] ∧ c' = false
  | .done => (c = true ∧ vs <+: us) ∨ (us = vs ∧ c' = false ∧ up.closed)
  | _ => False

theorem scope_inv (P : Pipe V) (vs : List V) (c : Bool) (p : Proc V) (h : Reach (.printed P) vs c p) :
    ∃ st us c' up ws, p = .scope us st c up ∧ Got c vs ws ∧ Reach P us c' up ∧ ScopeInv us ws c c' up st := by
  induction h with
  | start => exact ⟨.idle, [], false, _, [], rfl, .refl _ _, .start, rfl, rfl⟩
  | cancel h ih =>
    obtain ⟨st, us, c', up, ws, rfl, hw, hr, hi⟩ := ih
    refine ⟨st, us, c', up, ws, rfl, hw.cancel, hr, ?_⟩
    cases st <;> simp only [ScopeInv] at hi ⊢ <;> try exact hi
    rcases hi with h | ⟨h1, _⟩
    · exact absurd h.1 (by simp)
    · exact .inl ⟨trivial, h1 ▸ List.prefix_refl _⟩
  | out h hs ih =>
    obtain ⟨st, us, c', up, ws, rfl, hw, hr, hi⟩ := ih
    cases hs with
    | scopeSend _ _ v _ => exact ⟨.idle, us, c', up, _, rfl, hw.snoc _, hr, hi⟩
  | drain h hs ih =>
    obtain ⟨st, us, c', up, ws, rfl, hw, hr, hi⟩ := ih
    cases hs with
    | scopeSend _ _ v _ => exact ⟨.idle, us, c', up, _, rfl, hw.drain _, hr, hi⟩
  | tau h hs ih =>
    obtain ⟨st, us, c', up, ws, rfl, hw, hr, hi⟩ := ih
    cases hs with
    | scopeUp _ _ _ _ up' hs =>
      refine ⟨st, us, c', up', ws, rfl, hw, .tau hr hs, ?_⟩
      cases st <;> simp only [ScopeInv] at hi ⊢ <;> try exact hi
      rcases hi with h | h
      · exact .inl h
      · exact .inr ⟨h.1, h.2.1, (closed_step _ _ _ hs h.2.2).2⟩
    | scopeRecv _ _ v _ up' hs => exact ⟨.send v, us ++ [v], c', up', ws, rfl, hw, hi.2 ▸ .out (hi.2 ▸ hr) hs, by rw [hi.1], hi.2⟩
    | scopeEof _ _ _ hc => exact ⟨.done, us, c', up, ws, rfl, hw, hr, .inr ⟨hi.1, hi.2, hc⟩⟩
    | scopeStop _ _ =>
      have hc := reach_cancelled _ _ _ _ hr
      rw [hi.2] at hc hr
      simp only [closing_ok _ _ _ hc, (closing_ok () () _ hc).2]
      exact ⟨.done, us, true, up.cancel, ws, rfl, hw, .cancel hr, .inl ⟨rfl, hi.1 ▸ List.prefix_refl _⟩⟩
    | scopeStopSend _ v _ =>
      have hc := reach_cancelled _ _ _ _ hr
      rw [hi.2] at hc hr
      simp only [closing_ok _ _ _ hc, (closing_ok () () _ hc).2]
      exact ⟨.done, us, true, up.cancel, ws, rfl, hw, .cancel hr, .inl ⟨rfl, hi.1 ▸ List.prefix_append _ _⟩⟩

/-- The same for `Apply` with a left channel. -/
def App2Inv (f : Option V → V → Except V V) (s : V → Bool) (L : Pipe V) (ls us vs : List V) (c cl cu : Bool) (l up : Proc V) : StageSt V → Prop
  | .idle => Paired us ∧ F us = (vs, false) ∧ cl = false ∧ cu = false
  | .got v => ∃ us', us = us' ++ [v] ∧ Paired us' ∧ F us' = (vs, false) ∧ cl = false ∧ cu = false
  | .send v => Paired us ∧ F us = (vs ++ [v], false) ∧ cl = false ∧ cu = false
  | .sendErr v => Paired us ∧ F us = (vs ++ [v], true) ∧ cl = false ∧ cu = false
  | .failed => Paired us ∧ F us = (vs, true) ∧ cl = false ∧ cu = false
  | .stopLeft => Paired us ∧ F us = (vs, false) ∧ cl = false ∧ (c = true ∨ (cu = false ∧ up.closed))
  | .done => Paired us ∧ (F us = (vs, true) ∨ (F us = (vs, false) ∧ (c = true ∨ (cu = false ∧ up.closed))))
  | .crash => False
where
  Paired (us : List V) : Prop := ls.length = us.length ∨ (ls.length < us.length ∧ l.closed ∧ Sends L ls true)
  F (us : List V) := feed (fun q : Option V × V => f q.1 q.2) s (pairs ls us)

theorem app2Inv_mono (f : Option V → V → Except V V) (s : V → Bool) (L : Pipe V) (ls us vs : List V) (c cl cu : Bool) (l l' up up' : Proc V)
    (st : StageSt V) (h : App2Inv f s L ls us vs c cl cu l up st) (hl : l.closed → l'.closed) (hu : up.closed → up'.closed) :
    App2Inv f s L ls us vs c cl cu l' up' st := by
  have hp : ∀ us, App2Inv.Paired L ls l us → App2Inv.Paired L ls l' us := by
    rintro us (h | ⟨h1, h2, h3⟩)
    · exact .inl h
    · exact .inr ⟨h1, hl h2, h3⟩
  have hc : (c = true ∨ (cu = false ∧ up.closed)) → (c = true ∨ (cu = false ∧ up'.closed)) := by
    rintro (h | h)
    · exact .inl h
    · exact .inr ⟨h.1, hu h.2⟩
  cases st <;> simp only [App2Inv] at h ⊢
  · exact ⟨hp _ h.1, h.2⟩
  · obtain ⟨us', h1, h2, h3⟩ := h; exact ⟨us', h1, hp _ h2, h3⟩
  · exact ⟨hp _ h.1, h.2⟩
  · exact ⟨hp _ h.1, h.2⟩
  · exact ⟨hp _ h.1, h.2⟩
  · exact ⟨hp _ h.1, h.2.1, h.2.2.1, hc h.2.2.2⟩
  · exact ⟨hp _ h.1, h.2.imp id (fun h => ⟨h.1, hc h.2⟩)⟩

theorem app2_after (f : Option V → V → Except V V) (s : V → Bool) (L : Pipe V) (ls us vs : List V) (v : V) (c : Bool) (l up : Proc V)
    (hp : App2Inv.Paired L ls l (us ++ [v])) (hf : App2Inv.F f s ls us = (vs, false)) (x : Option V) (hx : ls[us.length]? = x) :
    App2Inv f s L ls (us ++ [v]) vs c false false l up (afterCall s (f x v)) := by
  have h3 := feed_snoc (fun q : Option V × V => f q.1 q.2) s (pairs ls us) (ls[us.length]?, v) _ hf
  rw [← pairs_snoc] at h3
  simp only [hx] at h3
  cases e : f x v with
  | error e' => rw [e] at h3; exact ⟨hp, h3, rfl, rfl⟩
  | ok w =>
    rw [e] at h3
    simp only [afterCall]
    by_cases hw : s w
    · rw [if_pos hw]; simp only [hw, if_true] at h3; exact ⟨hp, h3, rfl, rfl⟩
    · rw [if_neg hw]; simp only [hw] at h3; exact ⟨hp, by simpa [App2Inv.F] using h3, rfl, rfl⟩

theorem app2_inv (f : Option V → V → Except V V) (s : V → Bool) (L P : Pipe V)
    (hL : ∀ ls c l, Reach L ls c l → l.closed → c = false → Sends L ls true)
    (vs : List V) (c : Bool) (p : Proc V) (h : Reach (.each2 f s L P) vs c p) :
    ∃ st ls us cl cu l up ws, p = .app2 f s st c l up ∧ Got c vs ws ∧ Reach L ls cl l ∧ Reach P us cu up ∧ App2Inv f s L ls us ws c cl cu l up st := by
  induction h with
  | start => exact ⟨.idle, [], [], false, false, _, _, [], rfl, .refl _ _, .start, .start, .inl rfl, rfl, rfl, rfl⟩
  | cancel h ih =>
    obtain ⟨st, ls, us, cl, cu, l, up, ws, rfl, hw, hl, hr, hi⟩ := ih
    refine ⟨st, ls, us, cl, cu, l, up, ws, rfl, hw.cancel, hl, hr, ?_⟩
    cases st <;> simp only [App2Inv] at hi ⊢ <;> try exact hi
    · exact ⟨hi.1, hi.2.1, hi.2.2.1, .inl trivial⟩
    · exact ⟨hi.1, hi.2.imp id (fun h => ⟨h.1, .inl trivial⟩)⟩
  | out h hs ih =>
    obtain ⟨st, ls, us, cl, cu, l, up, ws, rfl, hw, hl, hr, hi⟩ := ih
    cases hs with
    | app2Send _ _ _ v _ _ => exact ⟨.idle, ls, us, cl, cu, l, up, _, rfl, hw.snoc _, hl, hr, hi⟩
    | app2Err _ _ _ v _ _ => exact ⟨.failed, ls, us, cl, cu, l, up, _, rfl, hw.snoc _, hl, hr, hi⟩
  | drain h hs ih =>
    obtain ⟨st, ls, us, cl, cu, l, up, ws, rfl, hw, hl, hr, hi⟩ := ih
    cases hs with
    | app2Send _ _ _ v _ _ => exact ⟨.idle, ls, us, cl, cu, l, up, _, rfl, hw.drain _, hl, hr, hi⟩
    | app2Err _ _ _ v _ _ => exact ⟨.failed, ls, us, cl, cu, l, up, _, rfl, hw.drain _, hl, hr, hi⟩
  | tau h hs ih =>
    obtain ⟨st, ls, us, cl, cu, l, up, ws, rfl, hw, hl, hr, hi⟩ := ih
    cases hs with
    | app2Left _ _ _ _ _ l' _ hs =>
      exact ⟨st, ls, us, cl, cu, l', up, ws, rfl, hw, .tau hl hs, hr, app2Inv_mono _ _ _ _ _ _ _ _ _ _ _ _ _ _ hi (fun hc => (closed_step _ _ _ hs hc).2) id⟩
    | app2Up _ _ _ _ _ _ up' hs =>
      exact ⟨st, ls, us, cl, cu, l, up', ws, rfl, hw, hl, .tau hr hs, app2Inv_mono _ _ _ _ _ _ _ _ _ _ _ _ _ _ hi id (fun hc => (closed_step _ _ _ hs hc).2)⟩
    | app2Recv _ _ _ v _ _ up' hs => exact ⟨.got v, ls, us ++ [v], cl, cu, l, up', ws, rfl, hw, hl, hi.2.2.2 ▸ .out (hi.2.2.2 ▸ hr) hs, us, rfl, hi⟩
    | app2Call _ _ _ v w _ l' _ hs =>
      obtain ⟨us', rfl, hp, hf, rfl, rfl⟩ := hi
      have he : ls.length = us'.length := by
        rcases hp with h | ⟨_, h, _⟩
        · exact h
        · exact absurd (closed_step _ _ _ hs h).1 (by simp)
      refine ⟨_, ls ++ [w], us' ++ [v], false, false, l', up, ws, rfl, hw, .out hl hs, hr, ?_⟩
      refine app2_after f s L (ls ++ [w]) us' _ v _ l' up (.inl (by simp [he])) ?_ (some w) (by simp [← he])
      rw [← hf]
      simp only [App2Inv.F]
      rw [pairs_left ls us' w (by omega)]
    | app2Nil _ _ _ v _ _ hc =>
      obtain ⟨us', rfl, hp, hf, rfl, rfl⟩ := hi
      have hle : ls.length ≤ us'.length := by rcases hp with h | ⟨h, _⟩ <;> omega
      refine ⟨_, ls, us' ++ [v], false, false, l, up, ws, rfl, hw, hl, hr, ?_⟩
      exact app2_after f s L ls us' _ v _ l up (.inr ⟨by simp; omega, hc, hL _ _ _ hl hc rfl⟩) hf none (List.getElem?_eq_none hle)
    | app2Eof _ _ _ _ _ hc => exact ⟨.stopLeft, ls, us, cl, cu, l, up, ws, rfl, hw, hl, hr, hi.1, hi.2.1, hi.2.2.1, .inr ⟨hi.2.2.2, hc⟩⟩
    | app2Stop _ _ _ _ =>
      have hc := reach_cancelled _ _ _ _ hr
      rw [hi.2.2.2] at hc hr
      simp only [closing_ok _ _ _ hc, (closing_ok () () _ hc).2]
      exact ⟨.stopLeft, ls, us, cl, true, l, up.cancel, ws, rfl, hw, hl, .cancel hr, hi.1, hi.2.1, hi.2.2.1, .inl rfl⟩
    | app2StopLeft _ _ _ _ _ =>
      have hc := reach_cancelled _ _ _ _ hl
      rw [hi.2.2.1] at hc hl
      simp only [closing_ok _ _ _ hc, (closing_ok () () _ hc).2]
      refine ⟨.done, ls, us, true, cu, l.cancel, up, ws, rfl, hw, .cancel hl, hr, ?_, .inr ⟨hi.2.1, hi.2.2.2⟩⟩
      rcases hi.1 with h | ⟨h1, h2, h3⟩
      · exact .inl h
      · exact .inr ⟨h1, (closed_cancel _).2 h2, h3⟩
    | app2Fail _ _ _ _ _ =>
      have hc := reach_cancelled _ _ _ _ hr
      rw [hi.2.2.2] at hc hr
      simp only [closing_ok _ _ _ hc, (closing_ok () () _ hc).2]
      exact ⟨.done, ls, us, cl, true, l, up.cancel, ws, rfl, hw, hl, .cancel hr, hi.1, .inl hi.2.1⟩

/-- The same for `rhoChannel`, as long as its reader has not closed: `g` are the groups sent. -/
def ChunkInv (n : Nat) (e : V → List V) (m : List V → V) (us vs : List V) (up : Proc V) (st : ChunkSt V) : Prop :=
  ∃ g : List (List V), (∀ x ∈ g, x.length = n) ∧ vs = g.map m ∧
    match st with
    | .idle b => us.flatMap e = g.flatten ++ b ∧ b.length < n
    | .push b xs => us.flatMap e = g.flatten ++ b ++ xs ∧ b.length < n
    | .full b xs => us.flatMap e = g.flatten ++ b ++ xs ∧ b.length = n
    | .done => ∃ b, us.flatMap e = g.flatten ++ b ∧ b.length < n ∧ up.closed
    | .crash => False

theorem chunk_inv (n : Nat) (hn : 0 < n) (e : V → List V) (m : List V → V) (P : Pipe V) (vs : List V) (c : Bool) (p : Proc V)
    (h : Reach (.reshaped n e m P) vs c p) :
    ∃ st us c' up, p = .chunk n e m st c up ∧ Reach P us c' up ∧ (c = false → c' = false ∧ ChunkInv n e m us vs up st) := by
  have recv : ∀ us c' up v up', Reach P us c' up → Step up (.out v) up' → ∃ us', Reach P us' c' up' ∧ (c' = false → us' = us ++ [v]) := by
    intro us c' up v up' hr hs
    cases c' with
    | false => exact ⟨_, .out hr hs, fun _ => rfl⟩
    | true => exact ⟨_, .drain hr hs, by simp⟩
  induction h with
  | start => exact ⟨.idle [], [], false, _, rfl, .start, fun _ => ⟨rfl, [], by simp, rfl, rfl, hn⟩⟩
  | cancel h ih =>
    obtain ⟨st, us, c', up, rfl, hr, hI⟩ := ih
    exact ⟨st, us, c', up, rfl, hr, by simp⟩
  | drain h hs ih =>
    obtain ⟨st, us, c', up, rfl, hr, hI⟩ := ih
    cases hs with
    | chunkSend _ _ _ b xs _ _ => exact ⟨_, us, c', up, rfl, hr, by simp⟩
  | out h hs ih =>
    obtain ⟨st, us, c', up, rfl, hr, hI⟩ := ih
    obtain ⟨rfl, g, hg, rfl, hi⟩ := hI rfl
    cases hs with
    | chunkSend _ _ _ b xs _ _ =>
      refine ⟨.push [] xs, us, false, up, rfl, hr, fun _ => ⟨rfl, g ++ [b], ?_, by simp, ?_⟩⟩
      · intro x hx
        rcases List.mem_append.1 hx with h | h
        · exact hg x h
        · rw [List.mem_singleton.1 h]; exact hi.2
      · exact ⟨by rw [hi.1]; simp, hn⟩
  | tau h hs ih =>
    obtain ⟨st, us, c', up, rfl, hr, hI⟩ := ih
    cases hs with
    | chunkUp _ _ _ _ _ _ up' hs =>
      refine ⟨st, us, c', up', rfl, .tau hr hs, fun hc => ?_⟩
      obtain ⟨h1, g, hg, rfl, hi⟩ := hI hc
      refine ⟨h1, g, hg, rfl, ?_⟩
      cases st <;> simp only at hi ⊢ <;> try exact hi
      obtain ⟨b, h1, h2⟩ := hi
      exact ⟨b, h1, h2.1, (closed_step _ _ _ hs h2.2).2⟩
    | chunkRecv _ _ _ b _ v _ up' hs =>
      obtain ⟨us', h1, h2⟩ := recv _ _ _ _ _ hr hs
      refine ⟨.push b (e v), us', c', up', rfl, h1, fun hc => ?_⟩
      obtain ⟨h3, g, hg, rfl, hi⟩ := hI hc
      rw [h2 h3]
      exact ⟨h3, g, hg, rfl, by simp [hi.1], hi.2⟩
    | chunkPush _ _ _ b x xs _ _ =>
      refine ⟨_, us, c', up, rfl, hr, fun hc => ?_⟩
      obtain ⟨h3, g, hg, rfl, hi⟩ := hI hc
      refine ⟨h3, g, hg, rfl, ?_⟩
      simp only at hi
      have : pushElem n b x xs = if b.length + 1 = n then .full (b ++ [x]) xs else .push (b ++ [x]) xs := by
        unfold pushElem
        rw [if_neg (by omega)]
      rw [this]
      by_cases hn : b.length + 1 = n
      · rw [if_pos hn]; exact ⟨by rw [hi.1]; simp, by simpa using hn⟩
      · rw [if_neg hn]; exact ⟨by rw [hi.1]; simp, by simp; omega⟩
    | chunkNext _ _ _ b _ _ =>
      refine ⟨.idle b, us, c', up, rfl, hr, fun hc => ?_⟩
      obtain ⟨h3, g, hg, rfl, hi⟩ := hI hc
      exact ⟨h3, g, hg, rfl, by simpa using hi.1, hi.2⟩
    | chunkStopPush _ _ _ b xs _ =>
      have hc := reach_cancelled _ _ _ _ hr
      cases hcc : up.cancelled with
      | true => simp only [closing, closed1, hcc, if_true]; exact ⟨.crash, us, c', up, rfl, hr, by simp⟩
      | false =>
        simp only [closing_ok _ _ _ hcc, (closing_ok () () _ hcc).2]
        rw [hcc] at hc; subst hc
        exact ⟨.push b xs, us, true, up.cancel, rfl, .cancel hr, by simp⟩
    | chunkEof _ _ _ b _ _ hc =>
      refine ⟨.done, us, c', up, rfl, hr, fun hc' => ?_⟩
      obtain ⟨h3, g, hg, rfl, hi⟩ := hI hc'
      exact ⟨h3, g, hg, rfl, b, hi.1, hi.2, hc⟩
    | chunkStop _ _ _ b _ =>
      have hc := reach_cancelled _ _ _ _ hr
      cases hcc : up.cancelled with
      | true => simp only [closing, closed1, hcc, if_true]; exact ⟨.crash, us, c', up, rfl, hr, by simp⟩
      | false =>
        simp only [closing_ok _ _ _ hcc, (closing_ok () () _ hcc).2]
        rw [hcc] at hc; subst hc
        exact ⟨.done, us, true, up.cancel, rfl, .cancel hr, by simp⟩

/-- Before closing, the reader had received the same values. -/
theorem reach_open (P : Pipe V) (vs : List V) (c : Bool) (p : Proc V) (h : Reach P vs c p) : ∃ p0, Reach P vs false p0 := by
  induction h with
  | start => exact ⟨_, .start⟩
  | @tau vs c p p' h hs ih =>
    cases c with
    | false => exact ⟨_, .tau h hs⟩
    | true => exact ih
  | out h hs _ => exact ⟨_, .out h hs⟩
  | drain _ _ ih => exact ih
  | cancel h _ => exact ⟨_, h⟩

end Iv

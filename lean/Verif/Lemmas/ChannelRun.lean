import Verif.Lemmas.Channel
/-
Termination and progress of trees of goroutines; uniqueness of what a pipeline sends.
-/
namespace Iv
variable {V : Type}

/-- `q` is `p` after a step, or after its reader has closed `c[1]` -/
def After (q p : Proc V) : Prop := (∃ l, Step p l q) ∨ (p.cancelled = false ∧ q = p.cancel)

/-- weight of a state -/
def StageSt.weight : StageSt V → Nat
  | .idle => 2
  | .got _ => 4
  | .send _ => 3
  | .sendErr _ => 3
  | .failed => 1
  | .stopLeft => 1
  | .done => 0
  | .crash => 0

/-- weight of a state -/
def ChunkSt.weight : ChunkSt V → Nat
  | .idle _ => 1
  | .push _ xs => 2 * xs.length + 2
  | .full _ xs => 2 * xs.length + 3
  | .done => 0
  | .crash => 0

/-- weight of a flag -/
def flag (c : Bool) : Nat := if c then 0 else 1

theorem afterCall_weight (s : V → Bool) (r : Except V V) : (afterCall s r).weight ≤ 3 := by
  cases r with
  | error e => simp [afterCall, StageSt.weight]
  | ok w => simp only [afterCall]; split <;> simp [StageSt.weight]

/-- closing: either the source changes, or the state is `crash` -/
theorem closing_cases {σ : Type} (n c : σ) (p : Proc V) :
    closed1 p = p ∧ closing n c p = c ∨ After (closed1 p) p := by
  cases h : p.cancelled with
  | true => exact .inl (by simp [closing, closed1, h])
  | false => exact .inr (.inr ⟨h, by simp [closed1, h]⟩)

theorem acc_src (rest : List V) (c d : Bool) : Acc After (Proc.src rest c d) := by
  generalize hm : rest.length + flag c + flag d = n
  induction n using Nat.strongRecOn generalizing rest c d with
  | _ n ih =>
    refine ⟨_, ?_⟩
    rintro q (⟨l, hs⟩ | ⟨hc, rfl⟩)
    · cases hs <;> exact ih _ (by simp [flag] at hm ⊢; omega) _ _ _ rfl
    · simp only [Proc.cancelled] at hc
      subst hc
      exact ih _ (by simp [flag] at hm ⊢; omega) _ _ _ rfl

theorem acc_lines (rest : List V) (c d : Bool) : Acc After (Proc.lines rest c d) := by
  generalize hm : rest.length + flag c + flag d = n
  induction n using Nat.strongRecOn generalizing rest c d with
  | _ n ih =>
    refine ⟨_, ?_⟩
    rintro q (⟨l, hs⟩ | ⟨hc, rfl⟩)
    · cases hs <;> exact ih _ (by simp [flag] at hm ⊢; omega) _ _ _ rfl
    · simp only [Proc.cancelled] at hc
      subst hc
      exact ih _ (by simp [flag] at hm ⊢; omega) _ _ _ rfl

theorem acc_app (f : V → Except V V) (s : V → Bool) (up : Proc V) (h : Acc After up) (st : StageSt V) (c : Bool) : Acc After (Proc.app f s st c up) := by
  induction h generalizing st c with
  | intro up _ ihu =>
    generalize hm : st.weight + flag c = n
    induction n using Nat.strongRecOn generalizing st c with
    | _ n ih =>
      refine ⟨_, ?_⟩
      rintro q (⟨l, hs⟩ | ⟨hc, rfl⟩)
      · cases hs with
        | appUp _ _ _ _ _ up' hs => exact ihu up' (.inl ⟨_, hs⟩) _ _
        | appRecv _ _ _ v _ up' hs => exact ihu up' (.inl ⟨_, hs⟩) _ _
        | appEof _ _ _ _ _ => exact ih _ (by simp [StageSt.weight] at hm ⊢; omega) _ _ rfl
        | appStop _ _ _ =>
          rcases closing_cases StageSt.done .crash up with h | h
          · rw [h.1, h.2]; exact ih _ (by simp [StageSt.weight] at hm ⊢; omega) _ _ rfl
          · exact ihu _ h _ _
        | appSend _ _ _ _ _ => exact ih _ (by simp [StageSt.weight] at hm ⊢; omega) _ _ rfl
        | appErr _ _ _ _ _ => exact ih _ (by simp [StageSt.weight] at hm ⊢; omega) _ _ rfl
        | appFail _ _ _ _ =>
          rcases closing_cases StageSt.done .crash up with h | h
          · rw [h.1, h.2]; exact ih _ (by simp [StageSt.weight] at hm ⊢; omega) _ _ rfl
          · exact ihu _ h _ _
      · simp only [Proc.cancelled] at hc
        subst hc
        exact ih _ (by simp [flag] at hm ⊢; omega) _ _ rfl

theorem acc_scope (up : Proc V) (h : Acc After up) (g : List V) (st : StageSt V) (c : Bool) : Acc After (Proc.scope g st c up) := by
  induction h generalizing g st c with
  | intro up _ ihu =>
    generalize hm : st.weight + flag c = n
    induction n using Nat.strongRecOn generalizing st c with
    | _ n ih =>
      refine ⟨_, ?_⟩
      rintro q (⟨l, hs⟩ | ⟨hc, rfl⟩)
      · cases hs with
        | scopeUp _ _ _ _ up' hs => exact ihu up' (.inl ⟨_, hs⟩) _ _ _
        | scopeRecv _ _ v _ up' hs => exact ihu up' (.inl ⟨_, hs⟩) _ _ _
        | scopeEof _ _ _ _ => exact ih _ (by simp [StageSt.weight] at hm ⊢; omega) _ _ rfl
        | scopeStop _ _ =>
          rcases closing_cases StageSt.done .crash up with h | h
          · rw [h.1, h.2]; exact ih _ (by simp [StageSt.weight] at hm ⊢; omega) _ _ rfl
          · exact ihu _ h _ _ _
        | scopeSend _ _ _ _ => exact ih _ (by simp [StageSt.weight] at hm ⊢; omega) _ _ rfl
        | scopeStopSend _ _ _ =>
          rcases closing_cases StageSt.done .crash up with h | h
          · rw [h.1, h.2]; exact ih _ (by simp [StageSt.weight] at hm ⊢; omega) _ _ rfl
          · exact ihu _ h _ _ _
      · simp only [Proc.cancelled] at hc
        subst hc
        exact ih _ (by simp [flag] at hm ⊢; omega) _ _ rfl

theorem acc_app2 (f : Option V → V → Except V V) (s : V → Bool) (up : Proc V) (h : Acc After up) (l : Proc V) (hl : Acc After l) (st : StageSt V)
    (c : Bool) : Acc After (Proc.app2 f s st c l up) := by
  induction h generalizing l st c with
  | intro up _ ihu =>
    induction hl generalizing st c with
    | intro l hl' ihl =>
      have hl : Acc After l := ⟨_, hl'⟩
      generalize hm : st.weight + flag c = n
      induction n using Nat.strongRecOn generalizing st c with
      | _ n ih =>
        refine ⟨_, ?_⟩
        rintro q (⟨lb, hs⟩ | ⟨hc, rfl⟩)
        · cases hs with
          | app2Left _ _ _ _ _ l' _ hs => exact ihl l' (.inl ⟨_, hs⟩) _ _
          | app2Up _ _ _ _ _ _ up' hs => exact ihu up' (.inl ⟨_, hs⟩) _ hl _ _
          | app2Recv _ _ _ v _ _ up' hs => exact ihu up' (.inl ⟨_, hs⟩) _ hl _ _
          | app2Call _ _ _ v w _ l' _ hs => exact ihl l' (.inl ⟨_, hs⟩) _ _
          | app2Nil _ _ _ v _ _ _ =>
            have := afterCall_weight s (f none v)
            exact ih _ (by rw [← hm]; exact Nat.add_lt_add_right (Nat.lt_of_le_of_lt this (by simp [StageSt.weight])) _) _ _ rfl
          | app2Eof _ _ _ _ _ _ => exact ih _ (by simp [StageSt.weight] at hm ⊢; omega) _ _ rfl
          | app2Stop _ _ _ _ =>
            rcases closing_cases StageSt.stopLeft .crash up with h | h
            · rw [h.1, h.2]; exact ih _ (by simp [StageSt.weight] at hm ⊢; omega) _ _ rfl
            · exact ihu _ h _ hl _ _
          | app2StopLeft _ _ _ _ _ =>
            rcases closing_cases StageSt.done .crash l with h | h
            · rw [h.1, h.2]; exact ih _ (by simp [StageSt.weight] at hm ⊢; omega) _ _ rfl
            · exact ihl _ h _ _
          | app2Send _ _ _ _ _ _ => exact ih _ (by simp [StageSt.weight] at hm ⊢; omega) _ _ rfl
          | app2Err _ _ _ _ _ _ => exact ih _ (by simp [StageSt.weight] at hm ⊢; omega) _ _ rfl
          | app2Fail _ _ _ _ _ =>
            rcases closing_cases StageSt.done .crash up with h | h
            · rw [h.1, h.2]; exact ih _ (by simp [StageSt.weight] at hm ⊢; omega) _ _ rfl
            · exact ihu _ h _ hl _ _
        · simp only [Proc.cancelled] at hc
          subst hc
          exact ih _ (by simp [flag] at hm ⊢; omega) _ _ rfl

theorem pushElem_weight (n : Nat) (b : List V) (x : V) (xs : List V) : (pushElem n b x xs).weight ≤ 2 * xs.length + 3 := by
  unfold pushElem
  split
  · simp [ChunkSt.weight]
  · split <;> simp [ChunkSt.weight]

theorem acc_chunk (n : Nat) (e : V → List V) (m : List V → V) (up : Proc V) (h : Acc After up) (st : ChunkSt V) (c : Bool) :
    Acc After (Proc.chunk n e m st c up) := by
  induction h generalizing st c with
  | intro up _ ihu =>
    generalize hm : st.weight + flag c = k
    induction k using Nat.strongRecOn generalizing st c with
    | _ k ih =>
      refine ⟨_, ?_⟩
      rintro q (⟨l, hs⟩ | ⟨hc, rfl⟩)
      · cases hs with
        | chunkUp _ _ _ _ _ _ up' hs => exact ihu up' (.inl ⟨_, hs⟩) _ _
        | chunkRecv _ _ _ _ _ v _ up' hs => exact ihu up' (.inl ⟨_, hs⟩) _ _
        | chunkPush _ _ _ b x xs _ _ =>
          have := pushElem_weight n b x xs
          exact ih _ (by rw [← hm]; exact Nat.add_lt_add_right (Nat.lt_of_le_of_lt this (by simp [ChunkSt.weight]; omega)) _) _ _ rfl
        | chunkNext _ _ _ _ _ _ => exact ih _ (by simp [ChunkSt.weight] at hm ⊢; omega) _ _ rfl
        | chunkSend _ _ _ _ _ _ _ => exact ih _ (by simp [ChunkSt.weight] at hm ⊢; omega) _ _ rfl
        | chunkStopPush _ _ _ b xs _ =>
          rcases closing_cases (ChunkSt.push b xs) .crash up with h | h
          · rw [h.1, h.2]; exact ih _ (by simp [ChunkSt.weight] at hm ⊢; omega) _ _ rfl
          · exact ihu _ h _ _
        | chunkEof _ _ _ _ _ _ _ => exact ih _ (by simp [ChunkSt.weight] at hm ⊢; omega) _ _ rfl
        | chunkStop _ _ _ _ _ =>
          rcases closing_cases (ChunkSt.done) .crash up with h | h
          · rw [h.1, h.2]; exact ih _ (by simp [ChunkSt.weight] at hm ⊢; omega) _ _ rfl
          · exact ihu _ h _ _
      · simp only [Proc.cancelled] at hc
        subst hc
        exact ih _ (by simp [flag] at hm ⊢; omega) _ _ rfl

theorem acc_start (P : Pipe V) (h : P.Finite) : Acc After P.start := by
  induction P with
  | values l => exact acc_src _ _ _
  | forever v => exact absurd h id
  | textLines l => exact acc_lines _ _ _
  | each f s P ih => exact acc_app _ _ _ (ih h) _ _
  | each2 f s L P ihl ih => exact acc_app2 _ _ _ (ih h.2) _ (ihl h.1) _ _
  | printed P ih => exact acc_scope _ (ih h) _ _ _
  | reshaped n e m P ih => exact acc_chunk _ _ _ _ (ih h) _ _

theorem groups_append (n : Nat) (hn : 0 < n) (m : List V → V) (g : List (List V)) (hg : ∀ x ∈ g, x.length = n) (r : List V) :
    groups n m (g.flatten ++ r) = g.map m ++ groups n m r := by
  induction g with
  | nil => rfl
  | cons x g ih =>
    have hx := hg x (by simp)
    rw [List.map_cons, List.cons_append, ← ih (fun y hy => hg y (by simp [hy]))]
    simp only [groups, List.flatten_cons, List.append_assoc, List.length_append]
    rw [hx, Nat.add_div_left _ hn, List.range_succ_eq_map]
    simp only [List.map_cons, List.map_map, Nat.zero_mul, List.drop_zero]
    congr 1
    · rw [List.take_left' hx]
    · apply List.map_congr_left
      intro i _
      simp only [Function.comp]
      congr 2
      rw [Nat.succ_mul, Nat.add_comm, ← List.drop_drop, List.drop_left' hx]

theorem groups_short (n : Nat) (m : List V → V) (r : List V) (h : r.length < n) : groups n m r = [] := by
  simp [groups, Nat.div_eq_of_lt h]

theorem src_inv (l vs : List V) (c : Bool) (p : Proc V) (h : Reach (.values l) vs c p) :
    ∃ rest d, p = .src rest c d ∧ (c = false → vs ++ rest = l ∧ (d = true → rest = [])) := by
  induction h with
  | start => exact ⟨l, false, rfl, by simp⟩
  | cancel _ ih => obtain ⟨r, d, rfl, h1⟩ := ih; exact ⟨r, d, rfl, by simp⟩
  | out _ hs ih => obtain ⟨r, d, rfl, h1⟩ := ih; cases hs with | srcSend v vs' _ => exact ⟨vs', false, rfl, by simpa using h1⟩
  | drain _ hs ih => obtain ⟨r, d, rfl, h1⟩ := ih; cases hs with | srcSend v vs' _ => exact ⟨vs', false, rfl, by simp⟩
  | tau _ hs ih =>
    obtain ⟨r, d, rfl, h1⟩ := ih
    cases hs with
    | srcStop v vs' => exact ⟨_, true, rfl, by simp⟩
    | srcEnd _ => exact ⟨[], true, rfl, fun hc => ⟨(h1 hc).1, by simp⟩⟩

theorem lines_inv (l vs : List V) (c : Bool) (p : Proc V) (h : Reach (.textLines l) vs c p) :
    ∃ rest d, p = .lines rest c d ∧ (c = false → vs ++ rest = l ∧ (d = true → rest = [])) := by
  induction h with
  | start => exact ⟨l, false, rfl, by simp⟩
  | cancel _ ih => obtain ⟨r, d, rfl, h1⟩ := ih; exact ⟨r, d, rfl, by simp⟩
  | out _ hs ih => obtain ⟨r, d, rfl, h1⟩ := ih; cases hs with | lineSend v vs' _ => exact ⟨vs', false, rfl, by simpa using h1⟩
  | drain _ hs ih => obtain ⟨r, d, rfl, h1⟩ := ih; cases hs with | lineSend v vs' _ => exact ⟨vs', false, rfl, by simp⟩
  | tau _ hs ih =>
    obtain ⟨r, d, rfl, h1⟩ := ih
    cases hs with
    | lineDrop v vs' => exact ⟨_, false, rfl, by simp⟩
    | lineEnd _ => exact ⟨[], true, rfl, fun hc => ⟨(h1 hc).1, by simp⟩⟩

theorem rep_inv (v : V) (vs : List V) (c : Bool) (p : Proc V) (h : Reach (.forever v) vs c p) :
    ∃ d k, p = .rep v c d ∧ (d = true → c = true) ∧ vs = List.replicate k v := by
  induction h with
  | start => exact ⟨false, 0, rfl, by simp, rfl⟩
  | cancel _ ih => obtain ⟨d, k, rfl, h1, h2⟩ := ih; exact ⟨d, k, rfl, by simp, h2⟩
  | out _ hs ih => obtain ⟨d, k, rfl, h1, h2⟩ := ih; cases hs with | repSend v _ => exact ⟨false, k + 1, rfl, by simp, by rw [h2, List.replicate_succ']⟩
  | drain _ hs ih => obtain ⟨d, k, rfl, h1, h2⟩ := ih; cases hs with | repSend v _ => exact ⟨false, k, rfl, by simp, h2⟩
  | tau _ hs ih => obtain ⟨d, k, rfl, h1, h2⟩ := ih; cases hs with | repStop _ => exact ⟨true, k, rfl, by simp, h2⟩

/-- Whatever has been received is what the pipeline sends, as far as it got; if the channel was closed without the reader asking for it, it is
everything. -/
theorem reach_sends (P : Pipe V) (hz : P.Sized) (vs : List V) (c : Bool) (p : Proc V) (h : Reach P vs c p) :
    (∃ d, Sends P vs d) ∧ (p.closed → c = false → Sends P vs true) := by
  suffices H : ∀ vs p, Reach P vs false p → (∃ d, Sends P vs d) ∧ (p.closed → Sends P vs true) by
    obtain ⟨p0, h0⟩ := reach_open P vs c p h
    refine ⟨(H _ _ h0).1, fun hc hf => ?_⟩
    subst hf
    exact (H _ _ h).2 hc
  clear h c p vs
  induction P with
  | values l =>
    intro vs p h
    obtain ⟨rest, d, rfl, h1⟩ := src_inv l vs _ p h
    obtain ⟨rfl, h2⟩ := h1 rfl
    refine ⟨⟨false, .first _ _ _ _ (.values _) (List.prefix_append _ _)⟩, fun hc => ?_⟩
    rw [h2 hc, List.append_nil]
    exact .values _
  | forever v =>
    intro vs p h
    obtain ⟨d, k, rfl, h1, rfl⟩ := rep_inv v vs _ p h
    exact ⟨⟨false, .forever _ _⟩, fun hc => absurd (h1 hc) (by simp)⟩
  | textLines l =>
    intro vs p h
    obtain ⟨rest, d, rfl, h1⟩ := lines_inv l vs _ p h
    obtain ⟨rfl, h2⟩ := h1 rfl
    refine ⟨⟨false, .first _ _ _ _ (.textLines _) (List.prefix_append _ _)⟩, fun hc => ?_⟩
    rw [h2 hc, List.append_nil]
    exact .textLines _
  | each f s P ih =>
    intro vs p h
    obtain ⟨st, us, c', up, ws, rfl, hw, hr, hi⟩ := app_inv f s P vs _ p h
    obtain rfl := hw.2 rfl
    obtain ⟨u0, hr0⟩ := reach_open P us c' up hr
    obtain ⟨⟨d, hd⟩, _⟩ := ih hz us u0 hr0
    have hs := Sends.each f s P us d hd
    constructor
    · refine ⟨false, .first _ _ _ _ hs ?_⟩
      cases st <;> simp only [AppInv] at hi
      · rw [hi.1]; exact List.prefix_refl _
      · rw [hi.1]; exact List.prefix_append _ _
      · rw [hi.1]; exact List.prefix_append _ _
      · rw [hi.1]; exact List.prefix_refl _
      · rcases hi with hi | hi
        · rw [hi]; exact List.prefix_refl _
        · rw [hi.1]; exact List.prefix_refl _
    · intro hc
      simp only [Proc.closed] at hc
      subst hc
      simp only [AppInv] at hi
      rcases hi with hi | ⟨hi, h2 | h2⟩
      · rw [hi] at hs; exact hs
      · simp at h2
      · obtain ⟨rfl, h3⟩ := h2
        have := Sends.each f s P us true ((ih hz us up hr).2 h3)
        rw [hi] at this
        exact this
  | each2 f s L P ihl ih =>
    intro vs p h
    obtain ⟨st, ls, us, cl, cu, l, up, ws, rfl, hw, hl, hr, hi⟩ := app2_inv f s L P
      (by intro ls c l hl hc hf; subst hf; exact (ihl hz.1 _ _ hl).2 hc) vs _ p h
    obtain rfl := hw.2 rfl
    obtain ⟨u0, hr0⟩ := reach_open P us cu up hr
    obtain ⟨⟨d, hd⟩, _⟩ := ih hz.2 us u0 hr0
    obtain ⟨l0, hl0⟩ := reach_open L ls cl l hl
    obtain ⟨⟨dl, hdl⟩, _⟩ := ihl hz.1 ls l0 hl0
    have hs : ∀ us' d', App2Inv.Paired L ls l us' → Sends P us' d' →
        Sends (.each2 f s L P) (App2Inv.F f s ls us').1 ((App2Inv.F f s ls us').2 || d') := by
      rintro us' d' (h | ⟨h1, _, h3⟩) hd'
      · exact Sends.each2 f s L P ls us' dl d' hdl hd' (.inl (by omega))
      · exact Sends.each2 f s L P ls us' true d' h3 hd' (.inr rfl)
    constructor
    · cases st <;> simp only [App2Inv] at hi
      · have := hs us d hi.1 hd
        rw [hi.2.1] at this; exact ⟨_, this⟩
      · obtain ⟨us', rfl, hi⟩ := hi
        have := hs us' false hi.1 (.first _ _ _ _ hd (List.prefix_append _ _))
        rw [hi.2.1] at this; exact ⟨_, this⟩
      · have := hs us d hi.1 hd
        rw [hi.2.1] at this; exact ⟨_, .first _ _ _ _ this (List.prefix_append _ _)⟩
      · have := hs us d hi.1 hd
        rw [hi.2.1] at this; exact ⟨_, .first _ _ _ _ this (List.prefix_append _ _)⟩
      · have := hs us d hi.1 hd
        rw [hi.2.1] at this; exact ⟨_, this⟩
      · have := hs us d hi.1 hd
        rw [hi.2.1] at this; exact ⟨_, this⟩
      · have := hs us d hi.1 hd
        rcases hi.2 with h | h
        · rw [h] at this; exact ⟨_, this⟩
        · rw [h.1] at this; exact ⟨_, this⟩
    · intro hc
      simp only [Proc.closed] at hc
      subst hc
      simp only [App2Inv] at hi
      rcases hi with ⟨hp, hi | ⟨hi, h2 | h2⟩⟩
      · have := hs us d hp hd
        rw [hi] at this; exact this
      · simp at h2
      · obtain ⟨rfl, h3⟩ := h2
        have := hs us true hp ((ih hz.2 us up hr).2 h3)
        rw [hi] at this
        exact this
  | printed P ih =>
    intro vs p h
    obtain ⟨st, us, c', up, ws, rfl, hw, hr, hi⟩ := scope_inv P vs _ p h
    obtain rfl := hw.2 rfl
    obtain ⟨u0, hr0⟩ := reach_open P us c' up hr
    obtain ⟨⟨d, hd⟩, _⟩ := ih hz us u0 hr0
    constructor
    · refine ⟨false, .printed _ _ _ (.first _ _ _ _ hd ?_)⟩
      cases st <;> simp only [ScopeInv] at hi
      · rw [hi.1]; exact List.prefix_refl _
      · rw [hi.1]; exact List.prefix_append _ _
      · rcases hi with hi | hi
        · exact hi.2
        · rw [hi.1]; exact List.prefix_refl _
    · intro hc
      simp only [Proc.closed] at hc
      subst hc
      simp only [ScopeInv] at hi
      rcases hi with hi | ⟨rfl, rfl, h3⟩
      · simp at hi
      · exact .printed _ _ _ ((ih hz us up hr).2 h3)
  | reshaped n e m P ih =>
    intro vs p h
    obtain ⟨st, us, c', up, rfl, hr, hI⟩ := chunk_inv n hz.1 e m P vs _ p h
    obtain ⟨rfl, g, hg, rfl, hi⟩ := hI rfl
    obtain ⟨⟨d, hd⟩, h2⟩ := ih hz.2 us up hr
    constructor
    · refine ⟨false, .first _ _ _ _ (.reshaped n e m P us d hd) ?_⟩
      have : ∃ b, us.flatMap e = g.flatten ++ b := by
        cases st <;> simp only at hi
        · exact ⟨_, hi.1⟩
        · exact ⟨_, by rw [hi.1, List.append_assoc]⟩
        · exact ⟨_, by rw [hi.1, List.append_assoc]⟩
        · obtain ⟨b, h, _⟩ := hi; exact ⟨b, h⟩
      obtain ⟨b, hb⟩ := this
      rw [hb, groups_append n hz.1 m g hg]
      exact List.prefix_append _ _
    · intro hc
      simp only [Proc.closed] at hc
      subst hc
      obtain ⟨b, h3, h4, h5⟩ := hi
      have := Sends.reshaped n e m P us true (h2 h5)
      rw [h3, groups_append n hz.1 m g hg, groups_short n m b h4, List.append_nil] at this
      exact this

/-- A goroutine that has not returned can go on, if its reader is ready to receive. -/
theorem can_step (P : Pipe V) (hz : P.Sized) (vs : List V) (c : Bool) (p : Proc V) (h : Reach P vs c p) (hc : ¬ p.closed) (hx : ¬ p.crashed) :
    ∃ l q, Step p l q := by
  induction P generalizing vs c p with
  | values l =>
    obtain ⟨rest, d, rfl, _⟩ := src_inv l vs c p h
    simp only [Proc.closed, Bool.not_eq_true] at hc
    subst hc
    cases rest with
    | nil => exact ⟨_, _, .srcEnd _⟩
    | cons v vs => exact ⟨_, _, .srcSend _ _ _⟩
  | forever v =>
    obtain ⟨d, _, rfl, _⟩ := rep_inv v vs c p h
    simp only [Proc.closed, Bool.not_eq_true] at hc
    subst hc
    exact ⟨_, _, .repSend _ _⟩
  | textLines l =>
    obtain ⟨rest, d, rfl, _⟩ := lines_inv l vs c p h
    simp only [Proc.closed, Bool.not_eq_true] at hc
    subst hc
    cases rest with
    | nil => exact ⟨_, _, .lineEnd _⟩
    | cons v vs => exact ⟨_, _, .lineSend _ _ _⟩
  | each f s P ih =>
    obtain ⟨st, us, c', up, ws, rfl, _, hr, hi⟩ := app_inv f s P vs _ p h
    cases st with
    | idle =>
      by_cases hu : up.closed
      · exact ⟨_, _, .appEof _ _ _ _ hu⟩
      · obtain ⟨lb, q, hs⟩ := ih hz _ _ _ hr hu (fun h => hx (.inr h))
        cases lb with
        | tau => exact ⟨_, _, .appUp _ _ _ _ _ _ hs⟩
        | out v => exact ⟨_, _, .appRecv _ _ _ _ _ _ hs⟩
    | send v => exact ⟨_, _, .appSend _ _ _ _ _⟩
    | sendErr v => exact ⟨_, _, .appErr _ _ _ _ _⟩
    | failed => exact ⟨_, _, .appFail _ _ _ _⟩
    | done => exact absurd rfl hc
    | got _ => exact absurd hi id
    | stopLeft => exact absurd hi id
    | crash => exact absurd hi id
  | each2 f s L P ihl ih =>
    obtain ⟨st, ls, us, cl, cu, l, up, ws, rfl, _, hl, hr, hi⟩ := app2_inv f s L P
      (fun ls c l hl hc hf => (reach_sends L hz.1 ls c l hl).2 hc hf) vs _ p h
    cases st with
    | idle =>
      by_cases hu : up.closed
      · exact ⟨_, _, .app2Eof _ _ _ _ _ hu⟩
      · obtain ⟨lb, q, hs⟩ := ih hz.2 _ _ _ hr hu (fun h => hx (.inr (.inr h)))
        cases lb with
        | tau => exact ⟨_, _, .app2Up _ _ _ _ _ _ _ hs⟩
        | out v => exact ⟨_, _, .app2Recv _ _ _ _ _ _ _ hs⟩
    | got v =>
      by_cases hu : l.closed
      · exact ⟨_, _, .app2Nil _ _ _ _ _ _ hu⟩
      · obtain ⟨lb, q, hs⟩ := ihl hz.1 _ _ _ hl hu (fun h => hx (.inr (.inl h)))
        cases lb with
        | tau => exact ⟨_, _, .app2Left _ _ _ _ _ _ _ hs⟩
        | out v => exact ⟨_, _, .app2Call _ _ _ _ _ _ _ _ hs⟩
    | send v => exact ⟨_, _, .app2Send _ _ _ _ _ _⟩
    | sendErr v => exact ⟨_, _, .app2Err _ _ _ _ _ _⟩
    | failed => exact ⟨_, _, .app2Fail _ _ _ _ _⟩
    | done => exact absurd rfl hc
    | stopLeft => exact ⟨_, _, .app2StopLeft _ _ _ _ _⟩
    | crash => exact absurd hi id
  | printed P ih =>
    obtain ⟨st, us, c', up, ws, rfl, _, hr, hi⟩ := scope_inv P vs _ p h
    cases st with
    | idle =>
      by_cases hu : up.closed
      · exact ⟨_, _, .scopeEof _ _ _ hu⟩
      · obtain ⟨lb, q, hs⟩ := ih hz _ _ _ hr hu (fun h => hx (.inr h))
        cases lb with
        | tau => exact ⟨_, _, .scopeUp _ _ _ _ _ hs⟩
        | out v => exact ⟨_, _, .scopeRecv _ _ _ _ _ hs⟩
    | send v => exact ⟨_, _, .scopeSend _ _ _ _⟩
    | done => exact absurd rfl hc
    | got _ => exact absurd hi id
    | sendErr _ => exact absurd hi id
    | failed => exact absurd hi id
    | stopLeft => exact absurd hi id
    | crash => exact absurd hi id
  | reshaped n e m P ih =>
    obtain ⟨st, us, c', up, rfl, hr, hi⟩ := chunk_inv n hz.1 e m P vs _ p h
    cases st with
    | idle b =>
      by_cases hu : up.closed
      · exact ⟨_, _, .chunkEof _ _ _ _ _ _ hu⟩
      · obtain ⟨lb, q, hs⟩ := ih hz.2 _ _ _ hr hu (fun h => hx (.inr h))
        cases lb with
        | tau => exact ⟨_, _, .chunkUp _ _ _ _ _ _ _ hs⟩
        | out v => exact ⟨_, _, .chunkRecv _ _ _ _ _ _ _ _ hs⟩
    | push b xs =>
      cases xs with
      | nil => exact ⟨_, _, .chunkNext _ _ _ _ _ _⟩
      | cons x xs => exact ⟨_, _, .chunkPush _ _ _ _ _ _ _ _⟩
    | full b xs => exact ⟨_, _, .chunkSend _ _ _ _ _ _ _⟩
    | done => exact absurd rfl hc
    | crash => exact absurd (.inl rfl) hx

theorem plain_sized (P : Pipe V) (h : P.Plain) : P.Sized := by
  induction P with
  | values | forever | textLines => trivial
  | each f s P ih => exact ih h
  | each2 f s L P ihl ih => exact ⟨ihl h.1, ih h.2⟩
  | printed P ih => exact ih h
  | reshaped => exact absurd h id

theorem plain_no_crash (P : Pipe V) (hz : P.Plain) (vs : List V) (c : Bool) (p : Proc V) (h : Reach P vs c p) : ¬ p.crashed := by
  induction P generalizing vs c p with
  | values l => obtain ⟨rest, d, rfl, _⟩ := src_inv l vs c p h; exact id
  | forever v => obtain ⟨d, _, rfl, _⟩ := rep_inv v vs c p h; exact id
  | textLines l => obtain ⟨rest, d, rfl, _⟩ := lines_inv l vs c p h; exact id
  | each f s P ih =>
    obtain ⟨st, us, c', up, ws, rfl, _, hr, hi⟩ := app_inv f s P vs _ p h
    rintro (rfl | h)
    · exact hi
    · exact ih hz _ _ _ hr h
  | each2 f s L P ihl ih =>
    obtain ⟨st, ls, us, cl, cu, l, up, ws, rfl, _, hl, hr, hi⟩ := app2_inv f s L P
      (fun ls c l hl hc hf => (reach_sends L (plain_sized _ hz.1) ls c l hl).2 hc hf) vs _ p h
    rintro (rfl | h | h)
    · exact hi
    · exact ihl hz.1 _ _ _ hl h
    · exact ih hz.2 _ _ _ hr h
  | printed P ih =>
    obtain ⟨st, us, c', up, ws, rfl, _, hr, hi⟩ := scope_inv P vs _ p h
    rintro (rfl | h)
    · exact hi
    · exact ih hz _ _ _ hr h
  | reshaped => exact absurd hz id

theorem pairs_prefix (ls ls' us us' : List V) (dl dl' : Bool) (hl : ls <+: ls' ∨ ls' <+: ls) (hd : dl = true → ls' <+: ls) (hd' : dl' = true → ls <+: ls')
    (h : us.length ≤ ls.length ∨ dl = true) (h' : us'.length ≤ ls'.length ∨ dl' = true) (hu : us <+: us') : pairs ls us <+: pairs ls' us' := by
  obtain ⟨t, rfl⟩ := hu
  rw [List.prefix_iff_eq_take]
  apply List.ext_getElem?
  intro i
  rw [pairs_length, List.getElem?_take]
  by_cases hi : i < us.length
  · rw [if_pos hi, pairs_get, pairs_get, List.getElem?_append_left hi]
    have key : ls[i]? = ls'[i]? := by
      by_cases h1 : i < ls.length
      · by_cases h2 : i < ls'.length
        · rcases hl with ⟨t, rfl⟩ | ⟨t, rfl⟩
          · rw [List.getElem?_append_left h1]
          · rw [List.getElem?_append_left h2]
        · have : dl' = true := h'.resolve_left (by simp; omega)
          have := (hd' this).length_le
          omega
      · have : dl = true := h.resolve_left (by omega)
        have := (hd this).length_le
        rw [List.getElem?_eq_none (by omega), List.getElem?_eq_none (by omega)]
    rw [key]
  · rw [if_neg hi, List.getElem?_eq_none (by rw [pairs_length]; omega)]

theorem groups_mono (n : Nat) (m : List V → V) (xs ys : List V) (h : xs <+: ys) : groups n m xs <+: groups n m ys := by
  obtain ⟨t, rfl⟩ := h
  rw [List.prefix_iff_eq_take]
  have hle : xs.length / n ≤ (xs ++ t).length / n := Nat.div_le_div_right (by simp)
  apply List.ext_getElem?
  intro i
  simp only [groups, List.length_map, List.length_range]
  rw [List.getElem?_take]
  by_cases hi : i < xs.length / n
  · rw [if_pos hi, List.getElem?_map, List.getElem?_map, List.getElem?_range hi, List.getElem?_range (by omega)]
    simp only [Option.map_some]
    congr 2
    have : (i + 1) * n ≤ xs.length := Nat.le_trans (Nat.mul_le_mul_right n hi) (Nat.div_mul_le_self _ _)
    rw [Nat.succ_mul] at this
    rw [List.drop_append_of_le_length (by omega), List.take_append_of_le_length (by rw [List.length_drop]; omega)]
  · rw [if_neg hi, List.getElem?_eq_none (by simp; omega)]

/-- both are beginnings of the same, and what is complete is the longer one -/
def Agree (vs : List V) (d : Bool) (ws : List V) (d' : Bool) : Prop := (vs <+: ws ∨ ws <+: vs) ∧ (d = true → ws <+: vs) ∧ (d' = true → vs <+: ws)

theorem Agree.symm {vs ws : List V} {d d' : Bool} (h : Agree vs d ws d') : Agree ws d' vs d := ⟨h.1.symm, h.2.2, h.2.1⟩

/-- `vs` is a beginning of `us` -/
def Begins (vs : List V) (d : Bool) (us : List V) (e : Bool) : Prop := vs <+: us ∧ (d = true → vs = us ∧ e = true)

theorem Begins.refl (us : List V) (e : Bool) : Begins us e us e := ⟨List.prefix_refl _, fun h => ⟨rfl, h⟩⟩

theorem Begins.first {vs us ws : List V} {d e : Bool} (h : Begins vs d us e) (hp : ws <+: vs) : Begins ws false us e := ⟨hp.trans h.1, by simp⟩

theorem Agree.begins {us us' vs vs' : List V} {d d' e e' : Bool} (h : Agree us e us' e') (h1 : Begins vs d us e) (h2 : Begins vs' d' us' e') :
    Agree vs d vs' d' := by
  refine ⟨?_, ?_, ?_⟩
  · rcases h.1 with a | a
    · exact List.prefix_or_prefix_of_prefix (h1.1.trans a) h2.1
    · exact List.prefix_or_prefix_of_prefix h1.1 (h2.1.trans a)
  · intro hd; obtain ⟨rfl, rfl⟩ := h1.2 hd; exact h2.1.trans (h.2.1 rfl)
  · intro hd; obtain ⟨rfl, rfl⟩ := h2.2 hd; exact h1.1.trans (h.2.2 rfl)

theorem agree_feed {β} (f : β → Except V V) (s : V → Bool) (us us' : List β) (d d' : Bool) (h : us <+: us' ∨ us' <+: us)
    (hd : d = true → us' <+: us) (hd' : d' = true → us <+: us') :
    Agree (feed f s us).1 ((feed f s us).2 || d) (feed f s us').1 ((feed f s us').2 || d') := by
  have stop : ∀ (us us' : List β), us <+: us' → (feed f s us).2 = true → feed f s us' = feed f s us := by
    rintro us _ ⟨t, rfl⟩ h; exact feed_append_stop f s us t h
  refine ⟨h.imp (feed_mono f s _ _) (feed_mono f s _ _), ?_, ?_⟩
  · intro he
    rcases h with h | h
    · rcases Bool.or_eq_true _ _ ▸ he with he | he
      · rw [stop _ _ h he]; exact List.prefix_refl _
      · exact feed_mono f s _ _ (hd he)
    · exact feed_mono f s _ _ h
  · intro he
    rcases h with h | h
    · exact feed_mono f s _ _ h
    · rcases Bool.or_eq_true _ _ ▸ he with he | he
      · rw [stop _ _ h he]; exact List.prefix_refl _
      · exact feed_mono f s _ _ (hd' he)

theorem sends_each (f : V → Except V V) (s : V → Bool) (P : Pipe V) (vs : List V) (d : Bool) (h : Sends (.each f s P) vs d) :
    ∃ us e, Sends P us e ∧ Begins vs d (feed f s us).1 ((feed f s us).2 || e) := by
  generalize hP : Pipe.each f s P = Q at h
  induction h with
  | each f s P us e h _ => cases hP; exact ⟨us, e, h, .refl _ _⟩
  | first _ vs d ws h hp ih => obtain ⟨us, e, h1, h2⟩ := ih hP; exact ⟨us, e, h1, h2.first hp⟩
  | _ => cases hP

theorem sends_each2 (f : Option V → V → Except V V) (s : V → Bool) (L P : Pipe V) (vs : List V) (d : Bool) (h : Sends (.each2 f s L P) vs d) :
    ∃ ls us dl e, Sends L ls dl ∧ Sends P us e ∧ (us.length ≤ ls.length ∨ dl = true) ∧
      Begins vs d (feed (fun q => f q.1 q.2) s (pairs ls us)).1 ((feed (fun q => f q.1 q.2) s (pairs ls us)).2 || e) := by
  generalize hP : Pipe.each2 f s L P = Q at h
  induction h with
  | each2 f s L P ls us dl e h1 h2 h3 _ _ => cases hP; exact ⟨ls, us, dl, e, h1, h2, h3, .refl _ _⟩
  | first _ vs d ws h hp ih => obtain ⟨ls, us, dl, e, h1, h2, h3, h4⟩ := ih hP; exact ⟨ls, us, dl, e, h1, h2, h3, h4.first hp⟩
  | _ => cases hP

theorem sends_printed (P : Pipe V) (vs : List V) (d : Bool) (h : Sends (.printed P) vs d) : ∃ us e, Sends P us e ∧ Begins vs d us e := by
  generalize hP : Pipe.printed P = Q at h
  induction h with
  | printed P us e h _ => cases hP; exact ⟨us, e, h, .refl _ _⟩
  | first _ vs d ws h hp ih => obtain ⟨us, e, h1, h2⟩ := ih hP; exact ⟨us, e, h1, h2.first hp⟩
  | _ => cases hP

theorem sends_reshaped (n : Nat) (el : V → List V) (m : List V → V) (P : Pipe V) (vs : List V) (d : Bool) (h : Sends (.reshaped n el m P) vs d) :
    ∃ us e, Sends P us e ∧ Begins vs d (groups n m (us.flatMap el)) e := by
  generalize hP : Pipe.reshaped n el m P = Q at h
  induction h with
  | reshaped n el m P us e h _ => cases hP; exact ⟨us, e, h, .refl _ _⟩
  | first _ vs d ws h hp ih => obtain ⟨us, e, h1, h2⟩ := ih hP; exact ⟨us, e, h1, h2.first hp⟩
  | _ => cases hP

theorem sends_values (l : List V) (vs : List V) (d : Bool) (h : Sends (.values l) vs d) : Begins vs d l true := by
  generalize hP : Pipe.values l = Q at h
  induction h with
  | values l => cases hP; exact .refl _ _
  | first _ vs d ws h hp ih => exact (ih hP).first hp
  | _ => cases hP

theorem sends_lines (l : List V) (vs : List V) (d : Bool) (h : Sends (.textLines l) vs d) : Begins vs d l true := by
  generalize hP : Pipe.textLines l = Q at h
  induction h with
  | textLines l => cases hP; exact .refl _ _
  | first _ vs d ws h hp ih => exact (ih hP).first hp
  | _ => cases hP

theorem sends_forever (v : V) (vs : List V) (d : Bool) (h : Sends (.forever v) vs d) : ∃ k, Begins vs d (List.replicate k v) false := by
  generalize hP : Pipe.forever v = Q at h
  induction h with
  | forever v k => cases hP; exact ⟨k, .refl _ _⟩
  | first _ vs d ws h hp ih => obtain ⟨k, hk⟩ := ih hP; exact ⟨k, hk.first hp⟩
  | _ => cases hP

theorem flatMap_mono {α β : Type} (e : α → List β) (us us' : List α) (h : us <+: us') : us.flatMap e <+: us'.flatMap e := by
  obtain ⟨t, rfl⟩ := h
  rw [List.flatMap_append]
  exact List.prefix_append _ _

/-- Two beginnings of what a pipeline sends agree. -/
theorem sends_agree (P : Pipe V) (vs ws : List V) (d d' : Bool) (h : Sends P vs d) (h' : Sends P ws d') : Agree vs d ws d' := by
  induction P generalizing vs ws d d' with
  | values l =>
    exact Agree.begins (us := l) (us' := l) ⟨.inl (List.prefix_refl _), fun _ => List.prefix_refl _, fun _ => List.prefix_refl _⟩
      (sends_values _ _ _ h) (sends_values _ _ _ h')
  | textLines l =>
    exact Agree.begins (us := l) (us' := l) ⟨.inl (List.prefix_refl _), fun _ => List.prefix_refl _, fun _ => List.prefix_refl _⟩
      (sends_lines _ _ _ h) (sends_lines _ _ _ h')
  | forever v =>
    obtain ⟨k, hk⟩ := sends_forever _ _ _ h
    obtain ⟨k', hk'⟩ := sends_forever _ _ _ h'
    refine Agree.begins ⟨?_, by simp, by simp⟩ hk hk'
    rcases Nat.le_total k k' with h | h
    · exact .inl ⟨List.replicate (k' - k) v, by rw [List.replicate_append_replicate]; congr 1; omega⟩
    · exact .inr ⟨List.replicate (k - k') v, by rw [List.replicate_append_replicate]; congr 1; omega⟩
  | each f s P ih =>
    obtain ⟨us, e, h1, h2⟩ := sends_each _ _ _ _ _ h
    obtain ⟨us', e', h1', h2'⟩ := sends_each _ _ _ _ _ h'
    obtain ⟨a, b, c⟩ := ih _ _ _ _ h1 h1'
    exact Agree.begins (agree_feed f s us us' e e' a b c) h2 h2'
  | each2 f s L P ihl ih =>
    obtain ⟨ls, us, dl, e, h1, h2, h3, h4⟩ := sends_each2 _ _ _ _ _ _ h
    obtain ⟨ls', us', dl', e', h1', h2', h3', h4'⟩ := sends_each2 _ _ _ _ _ _ h'
    obtain ⟨a, b, c⟩ := ih _ _ _ _ h2 h2'
    obtain ⟨al, bl, cl⟩ := ihl _ _ _ _ h1 h1'
    have m1 : us <+: us' → pairs ls us <+: pairs ls' us' := pairs_prefix ls ls' us us' dl dl' al bl cl h3 h3'
    have m2 : us' <+: us → pairs ls' us' <+: pairs ls us := pairs_prefix ls' ls us' us dl' dl al.symm cl bl h3' h3
    exact Agree.begins (agree_feed _ s _ _ e e' (a.imp m1 m2) (fun h => m2 (b h)) (fun h => m1 (c h))) h4 h4'
  | printed P ih =>
    obtain ⟨us, e, h1, h2⟩ := sends_printed _ _ _ h
    obtain ⟨us', e', h1', h2'⟩ := sends_printed _ _ _ h'
    exact Agree.begins (ih _ _ _ _ h1 h1') h2 h2'
  | reshaped n el m P ih =>
    obtain ⟨us, e, h1, h2⟩ := sends_reshaped _ _ _ _ _ _ h
    obtain ⟨us', e', h1', h2'⟩ := sends_reshaped _ _ _ _ _ _ h'
    obtain ⟨a, b, c⟩ := ih _ _ _ _ h1 h1'
    have mono : ∀ us us' : List V, us <+: us' → groups n m (us.flatMap el) <+: groups n m (us'.flatMap el) :=
      fun us us' h => groups_mono n m _ _ (flatMap_mono _ _ _ h)
    exact Agree.begins ⟨a.imp (mono _ _) (mono _ _), fun h => mono _ _ (b h), fun h => mono _ _ (c h)⟩ h2 h2'

/-- A pipeline with finite sources sends its output. -/
theorem sends_output (P : Pipe V) (h : P.Finite) : Sends P P.output true := by
  induction P with
  | values l => exact .values l
  | forever v => exact absurd h id
  | textLines l => exact .textLines l
  | each f s P ih =>
    have := Sends.each f s P _ _ (ih h)
    rw [Bool.or_true] at this
    exact this
  | each2 f s L P ihl ih =>
    have := Sends.each2 f s L P _ _ _ _ (ihl h.1) (ih h.2) (.inr rfl)
    rw [Bool.or_true] at this
    exact this
  | printed P ih => exact .printed _ _ _ (ih h)
  | reshaped n e m P ih => exact .reshaped _ _ _ _ _ _ (ih h)

end Iv

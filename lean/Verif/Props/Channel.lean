import Verif.Lemmas.ChannelRead
/-
C51: what a pipeline of channels sends, for every interleaving of its goroutines.  C52: reduction and scan over a channel.
-/
namespace Iv
variable {V : Type}

/-! ### C51 -/

/-- Whatever the interleaving, the values received are the first ones the pipeline sends; if the channel is closed (and the reader has not closed
it) they are all. -/
theorem C51_received (P : Pipe V) (hz : P.Sized) (vs : List V) (c : Bool) (p : Proc V) (h : Reach P vs c p) :
    (∃ d, Sends P vs d) ∧ (p.closed → c = false → Sends P vs true) := reach_sends P hz vs c p h

/-- There is only one sequence of values a pipeline sends: two readers see the same values as far as both have read, and no more than those a
closed channel has sent. -/
theorem C51_unique (P : Pipe V) (vs ws : List V) (d d' : Bool) (h : Sends P vs d) (h' : Sends P ws d') :
    (vs <+: ws ∨ ws <+: vs) ∧ (d = true → ws <+: vs) ∧ (d' = true → vs <+: ws) := sends_agree P vs ws d d' h h'

/-- With finite sources the values are those of `Pipe.output`. -/
theorem C51_exact (P : Pipe V) (hf : P.Finite) (hz : P.Sized) (vs : List V) (c : Bool) (p : Proc V) (h : Reach P vs c p) :
    vs <+: P.output ∧ (p.closed → c = false → vs = P.output) := by
  obtain ⟨⟨d, hs⟩, hc⟩ := reach_sends P hz vs c p h
  have hp := (sends_agree P _ _ d true hs (sends_output P hf)).2.2 rfl
  refine ⟨hp, fun h1 h2 => ?_⟩
  have := (sends_agree P _ _ true true (hc h1 h2) (sends_output P hf)).2.1 rfl
  exact hp.eq_of_length (Nat.le_antisymm hp.length_le this.length_le)

/-- `<[k]R` is the source of `k` copies of `R` for a positive `k` and of copies for ever for a negative one, whatever the index origin.  Without an axis it is the
source of one copy only if the index origin is 0: with the default origin 1 two copies are sent. -/
theorem C51_source (origin : Int) (v : V) :
    (∀ k : Nat, 0 < k → sourceOf origin (some k) v = some (Pipe.values (List.replicate k v)).start) ∧
    (∀ k : Int, k < 0 → sourceOf origin (some k) v = some (Pipe.forever v).start) ∧
    sourceOf 0 none v = some (Pipe.values [v]).start ∧
    sourceOf 1 none v = some (Pipe.values [v, v]).start := by
  refine ⟨fun k hk => ?_, fun k hk => ?_, rfl, rfl⟩
  · simp only [sourceOf, Int.sub_add_cancel]
    rw [if_neg (by omega), if_pos (by omega), Int.toNat_natCast]
    rfl
  · simp only [sourceOf, Int.sub_add_cancel]
    rw [if_neg (by omega), if_neg (by omega)]
    rfl

/-- As long as the channel is not closed there is something to do: a goroutine can go on by itself or a value can be received.  So a reader that
receives whatever comes (also `Close`, which throws the values away) is never blocked for ever. -/
theorem C51_progress (P : Pipe V) (hz : P.Sized) (vs : List V) (c : Bool) (p : Proc V) (h : Reach P vs c p) (hc : ¬ p.closed) (hx : ¬ p.crashed) :
    ∃ l q, Step p l q := can_step P hz vs c p h hc hx

/-- With finite sources the goroutines do not run for ever, whatever the reader does. -/
theorem C51_terminates (P : Pipe V) (hf : P.Finite) :
    ¬ ∃ r : Nat → Proc V, r 0 = P.start ∧ ∀ i, (∃ l, Step (r i) l (r (i + 1))) ∨ ((r i).cancelled = false ∧ r (i + 1) = (r i).cancel) :=
  no_run After P.start (acc_start P hf)

/-- No goroutine panics in a pipeline without reshape. -/
theorem C51_no_crash (P : Pipe V) (hz : P.Plain) (vs : List V) (c : Bool) (p : Proc V) (h : Reach P vs c p) : ¬ p.crashed :=
  plain_no_crash P hz vs c p h

/-- Together: a reader that receives values until nothing happens any more (which comes to be, by `C51_terminates`) has received all
values and the channel is closed. -/
theorem C51_complete (P : Pipe V) (hf : P.Finite) (hz : P.Plain) (vs : List V) (p : Proc V) (h : Reach P vs false p)
    (hn : ∀ l q, ¬ Step p l q) : p.closed ∧ vs = P.output := by
  have hc : p.closed := Classical.byContradiction fun hc =>
    let ⟨l, q, hs⟩ := can_step P (plain_sized P hz) vs false p h hc (plain_no_crash P hz vs false p h); hn l q hs
  exact ⟨hc, (C51_exact P hf (plain_sized P hz) vs false p h).2 hc rfl⟩

/-- After `Close` the channel is closed when nothing happens any more: `Close` returns. -/
theorem C51_close_returns (P : Pipe V) (hz : P.Plain) (vs : List V) (p : Proc V) (h : Reach P vs true p) (hn : ∀ l q, ¬ Step p l q) : p.closed :=
  Classical.byContradiction fun hc =>
    let ⟨l, q, hs⟩ := can_step P (plain_sized P hz) vs true p h hc (plain_no_crash P hz vs true p h); hn l q hs

/-- When the channel of a chain of stages is closed without its reader asking for it, all goroutines have returned. -/
theorem C51_all_return (P : Pipe V) (hP : P.Chain) (vs : List V) (p : Proc V) (h : Reach P vs false p) (hc : p.closed) : p.finished :=
  chain_ends P hP vs p h hc

/-- If there is a single stage after a source, all goroutines return also if the reader closes the channel early, or if the function fails. -/
theorem C51_one_stage (f : V → Except V V) (skip : V → Bool) (P : Pipe V) (hP : P.Source) (vs : List V) (c : Bool) (p : Proc V)
    (h : Reach (.each f skip P) vs c p) (hc : p.closed) (hn : ∀ q, ¬ Step p .tau q) : p.finished := by
  have hs := reach_stop _ _ _ _ h
  obtain ⟨st, us, c', up, ws, rfl, _, hr, hi⟩ := app_inv f skip P vs _ p h
  have e : st = .done := hc
  subst e
  exact ⟨rfl, source_ends P hP us c' up hr (hs rfl) (fun q hq => hn _ (.appUp _ _ _ _ _ _ hq))⟩

/-- The same for a printed source. -/
theorem C51_one_print (P : Pipe V) (hP : P.Source) (vs : List V) (c : Bool) (p : Proc V)
    (h : Reach (.printed P) vs c p) (hc : p.closed) (hn : ∀ q, ¬ Step p .tau q) : p.finished := by
  have hs := reach_stop _ _ _ _ h
  obtain ⟨st, us, c', up, ws, rfl, _, hr, hi⟩ := scope_inv P vs _ p h
  have e : st = .done := hc
  subst e
  exact ⟨rfl, source_ends P hP us c' up hr (hs rfl) (fun q hq => hn _ (.scopeUp _ _ _ _ _ hq))⟩

/-- The same for two sources; here the function must not fail. -/
theorem C51_two_sources (f : Option V → V → Except V V) (hf : ∀ a b, ∃ w, f a b = .ok w) (skip : V → Bool) (L P : Pipe V) (hL : L.Source) (hP : P.Source)
    (vs : List V) (c : Bool) (p : Proc V) (h : Reach (.each2 f skip L P) vs c p) (hc : p.closed) (hn : ∀ q, ¬ Step p .tau q) : p.finished := by
  have hs := reach_stop _ _ _ _ h
  have sz : L.Sized := by cases L <;> first | trivial | exact absurd hL id
  obtain ⟨st, ls, us, cl, cu, l, up, ws, rfl, _, hl, hr, hi⟩ := app2_inv f skip L P
    (fun ls c l hl hc hf => (reach_sends L sz ls c l hl).2 hc hf) vs _ p h
  have e : st = .done := hc
  subst e
  obtain ⟨_, h2, h3⟩ := hs hf
  exact ⟨rfl, source_ends L hL ls cl l hl (.inl (h3 rfl)) (fun q hq => hn _ (.app2Left _ _ _ _ _ _ _ hq)),
    source_ends P hP us cu up hr (h2 (.inl rfl)) (fun q hq => hn _ (.app2Up _ _ _ _ _ _ _ hq))⟩

/-- `L↑C` receives the next values and no more, or fails because the channel has ended before. -/
theorem C51_take (P : Pipe V) (hf : P.Finite) (hz : P.Sized) (vs : List V) (p : Proc V) (n : Nat) (h : Reach P vs false p)
    (q : Proc V) (r : TakeSt V) (ht : Takes p n (q, r)) :
    (∀ ws, r = .take 0 ws → ws = (P.output.drop vs.length).take n ∧ ws.length = n ∧ Reach P (vs ++ ws) false q) ∧
    (r = .fail → P.output.length < vs.length + n) := by
  have hi := takes_inv P vs p n h (q, r) ht
  constructor
  · rintro ws rfl
    obtain ⟨h1, h2⟩ := hi
    obtain ⟨⟨t, e⟩, _⟩ := C51_exact P hf hz _ _ _ h1
    refine ⟨?_, by omega, h1⟩
    rw [← e, List.append_assoc, List.drop_left, List.take_left' (by omega)]
  · rintro rfl
    obtain ⟨ws, h1, h2, h3⟩ := hi
    rw [← (C51_exact P hf hz _ _ _ h1).2 h2 rfl, List.length_append]
    omega

/-! ### Examples for C51 -/

/-- a pipeline: add one, leave out results of 3, fail on 4 -/
def demoPipe (l : List Nat) : Pipe Nat :=
  .each (fun v => if v = 4 then .error 99 else .ok (v + 1)) (fun w => w == 3) (.values l)

example : (demoPipe [1, 2, 3]).output = [2, 4] := by rfl
example : (demoPipe [1, 4, 3]).output = [2, 99] := by rfl
example : (Pipe.each2 (fun l v => .ok (l.getD 0 + v)) (fun _ => false) (.values [10]) (.values [1, 2])).output = [11, 2] := by rfl
example : (Pipe.reshaped 2 (fun v => [v]) List.sum (.values [1, 2, 3])).output = [3] := by rfl

/-- one run: 2 has been received and the channel is closed by its reader while 2 (to be left out) is being worked on -/
example : Reach (demoPipe [1, 2, 3]) [2] true (.app (fun v => if v = 4 then .error 99 else .ok (v + 1)) (fun w => w == 3) .done true (.src [3] true true)) := by
  have h1 := (Reach.start (P := demoPipe [1, 2, 3])).tau (.appRecv _ _ _ _ _ _ (.srcSend _ _ _))
  have h2 := h1.out (v := 2) (.appSend _ _ _ _ _)
  have h3 := h2.tau (.appRecv _ _ _ _ _ _ (.srcSend _ _ _))
  have h4 := h3.cancel
  have h5 := h4.tau (.appStop _ _ _)
  exact h5.tau (.appUp _ _ _ _ _ _ (.srcStop _ _))

/-- Two stages and a reader that closes early: the inner goroutine waits for ever to send the value 2, and so does the source. -/
theorem C51_two_stages_leak : ∃ p : Proc Nat, Reach (.each .ok (fun _ => false) (.each .ok (fun _ => false) (.values [1, 2, 3]))) [] true p ∧
    p.closed ∧ (∀ l q, ¬ Step p l q) ∧ ¬ p.finished := by
  refine ⟨.app .ok (fun _ => false) .done true (.app .ok (fun _ => false) (.send 2) true (.src [3] false false)), ?_, rfl, ?_, ?_⟩
  · have h1 := (Reach.start (P := .each .ok (fun _ => false) (.each .ok (fun _ => false) (.values [1, 2, 3])))).tau
      (.appUp _ _ _ _ _ _ (.appRecv _ _ _ _ _ _ (.srcSend _ _ _)))
    have h2 := h1.tau (.appRecv _ _ _ 1 _ _ (.appSend _ _ _ _ _))
    have h3 := h2.tau (.appUp _ _ _ _ _ _ (.appRecv _ _ _ _ _ _ (.srcSend _ _ _)))
    have h4 := h3.cancel
    have h5 := h4.drain (.appSend _ _ _ _ _)
    exact h5.tau (.appStop _ _ _)
  · intro l q h
    cases h with
    | appUp _ _ _ _ _ _ h => cases h with | appUp _ _ _ _ _ _ h => cases h
  · intro h
    exact absurd h.2.1 (by simp)

/-- A reshaped channel that is closed while an array is ready to be sent: the goroutine closes its source twice and panics, which ends the
program. -/
theorem C51_reshape_crash : ∃ p : Proc Nat, Reach (.reshaped 1 (fun v => [v]) List.sum (.values [1, 2])) [] true p ∧ p.crashed := by
  refine ⟨.chunk 1 (fun v => [v]) List.sum .crash true (.src [2] true false), ?_, .inl rfl⟩
  have h1 := (Reach.start (P := .reshaped 1 (fun v => [v]) List.sum (.values [1, 2]))).tau (.chunkRecv _ _ _ _ _ _ _ _ (.srcSend _ _ _))
  have h2 := h1.tau (.chunkPush _ _ _ _ _ _ _ _)
  have h3 := h2.cancel
  have h4 := h3.tau (.chunkStopPush _ _ _ _ _ _)
  have h5 := h4.tau (.chunkNext _ _ _ _ _ _)
  exact h5.tau (.chunkStop _ _ _ _ _)

/-- A function with a left channel that fails: the left channel is not closed and its goroutine waits for ever. -/
theorem C51_left_leak : ∃ p : Proc Nat, Reach (.each2 (fun _ _ => .error 99) (fun _ => false) (.values [1, 2]) (.values [3])) [99] false p ∧
    p.closed ∧ (∀ l q, ¬ Step p l q) ∧ ¬ p.finished := by
  refine ⟨.app2 (fun _ _ => .error 99) (fun _ => false) .done false (.src [2] false false) (.src [] true true), ?_, rfl, ?_, ?_⟩
  · have h1 := (Reach.start (P := .each2 (fun _ _ => .error 99) (fun _ => false) (.values [1, 2]) (.values [3]))).tau
      (.app2Recv _ _ _ _ _ _ _ (.srcSend _ _ _))
    have h2 := h1.tau (.app2Call _ _ _ _ _ _ _ _ (.srcSend _ _ _))
    have h3 := h2.out (.app2Err _ _ _ _ _ _)
    have h4 := h3.tau (.app2Fail _ _ _ _ _)
    exact h4.tau (.app2Up _ _ _ _ _ _ _ (.srcEnd _))
  · intro l q h
    cases h with
    | app2Left _ _ _ _ _ _ _ h => cases h
    | app2Up _ _ _ _ _ _ _ h => cases h
  · intro h
    exact absurd h.2.1 (by simp [Proc.finished])

/-! ### C52 -/

/-- `f/C`: when the reduction returns its result is the left fold of the values the channel has sent.  It is an error only if `f` has failed on
them (the rest is thrown away); otherwise these are all values up to the end.  The channel is closed in both directions. -/
theorem C52_reduce {E : Type} (f : V → V → Except E V) (P : Pipe V) (hz : P.Sized) (p : Proc V) (res : Except E (Option V))
    (h : Reads (reduceStep f) P (.ok none) (p, .fin res)) :
    (∃ vs d, Sends P vs d ∧ res = foldValues f vs ∧ (d = true ∨ ∃ e, res = .error e)) ∧ p.closed ∧ p.cancelled = true := by
  obtain ⟨⟨q, vs, hr, hq⟩, ⟨vs', hr'⟩, hc⟩ := reads_inv _ _ _ _ h
  refine ⟨?_, hc, reach_cancelled _ _ _ _ hr'⟩
  rcases hq with ⟨hq, e⟩ | ⟨us, v, b, rfl, e, hg⟩
  · exact ⟨vs, true, (reach_sends P hz _ _ _ hr).2 hq rfl, (foldMore_reduce f vs res [] _ rfl e).symm, .inl rfl⟩
  · obtain ⟨h1, h2⟩ := stop_reduce f us v b res (foldMore_reduce f us b [] _ rfl e) hg
    obtain ⟨d, hd⟩ := (reach_sends P hz _ _ _ hr).1
    exact ⟨_, d, hd, h1.symm, .inr h2⟩

/-- With finite sources it is the fold of all values. -/
theorem C52_reduce_all {E : Type} (f : V → V → Except E V) (P : Pipe V) (hf : P.Finite) (hz : P.Sized) (p : Proc V) (res : Except E (Option V))
    (h : Reads (reduceStep f) P (.ok none) (p, .fin res)) : res = foldValues f P.output := by
  obtain ⟨⟨vs, d, hs, rfl, hd⟩, _⟩ := C52_reduce f P hz p res h
  obtain ⟨_, h1, h2⟩ := sends_agree P _ _ d true hs (sends_output P hf)
  rcases hd with rfl | ⟨e, he⟩
  · rw [(h2 rfl).eq_of_length (Nat.le_antisymm (h2 rfl).length_le (h1 rfl).length_le)]
  · obtain ⟨t, ht⟩ := h2 rfl
    rw [← ht, foldValues_error f vs t e he, he]

/-- `f\C`: the result has all left folds of the values, up to the end; it is an error if one of them fails. -/
theorem C52_scan {E : Type} (f : V → V → Except E V) (P : Pipe V) (hz : P.Sized) (p : Proc V) (res : Except E (List V))
    (h : Reads (scanStep f) P (.ok []) (p, .fin res)) :
    (∃ vs d, Sends P vs d ∧ res = runningFolds f vs ∧ (d = true ∨ ∃ e, res = .error e)) ∧ p.closed ∧ p.cancelled = true := by
  obtain ⟨⟨q, vs, hr, hq⟩, ⟨vs', hr'⟩, hc⟩ := reads_inv _ _ _ _ h
  refine ⟨?_, hc, reach_cancelled _ _ _ _ hr'⟩
  rcases hq with ⟨hq, e⟩ | ⟨us, v, b, rfl, e, hg⟩
  · exact ⟨vs, true, (reach_sends P hz _ _ _ hr).2 hq rfl, (foldMore_scan f vs res [] _ rfl e).symm, .inl rfl⟩
  · obtain ⟨h1, h2⟩ := stop_scan f us v b res (foldMore_scan f us b [] _ rfl e) hg
    obtain ⟨d, hd⟩ := (reach_sends P hz _ _ _ hr).1
    exact ⟨_, d, hd, h1.symm, .inr h2⟩

/-- With finite sources these are the folds of all values. -/
theorem C52_scan_all {E : Type} (f : V → V → Except E V) (P : Pipe V) (hf : P.Finite) (hz : P.Sized) (p : Proc V) (res : Except E (List V))
    (h : Reads (scanStep f) P (.ok []) (p, .fin res)) : res = runningFolds f P.output := by
  obtain ⟨⟨vs, d, hs, rfl, hd⟩, _⟩ := C52_scan f P hz p res h
  obtain ⟨_, h1, h2⟩ := sends_agree P _ _ d true hs (sends_output P hf)
  rcases hd with rfl | ⟨e, he⟩
  · rw [(h2 rfl).eq_of_length (Nat.le_antisymm (h2 rfl).length_le (h1 rfl).length_le)]
  · obtain ⟨t, ht⟩ := h2 rfl
    rw [← ht, running_error f vs t e he, he]

/-- A reader (a reduction, a scan) beside a pipeline with finite sources does not run for ever … -/
theorem C52_terminates {A : Type} (g : A → V → Next A) (P : Pipe V) (hf : P.Finite) (a : A) :
    ¬ ∃ r : Nat → Proc V × ReadSt A, r 0 = (P.start, .read a) ∧ ∀ i, SysStep g (r i) (r (i + 1)) :=
  no_run (fun s' s => SysStep g s s') _ (acc_reads g _ (acc_start P hf) _)

/-- … and if nothing can happen any more it has returned. -/
theorem C52_returns {A : Type} (g : A → V → Next A) (P : Pipe V) (hz : P.Plain) (a : A) (p : Proc V) (r : ReadSt A) (h : Reads g P a (p, r))
    (hn : ∀ s, ¬ SysStep g (p, r) s) : ∃ b, r = .fin b := by
  have hi := reads_inv g P a _ h
  have prog : ∀ vs c, Reach P vs c p → ¬ p.closed → ∃ v q, Step p (.out v) q := by
    intro vs c hr hc
    obtain ⟨l, q, hs⟩ := can_step P (plain_sized P hz) vs c p hr hc (plain_no_crash P hz vs c p hr)
    cases l with
    | tau => exact absurd (.tau _ _ _ hs) (hn _)
    | out v => exact ⟨v, q, hs⟩
  cases r with
  | fin b => exact ⟨b, rfl⟩
  | read b =>
    obtain ⟨vs, hr, _⟩ := hi
    have hc : ¬ p.closed := fun hc => hn _ (.eof _ _ hc)
    obtain ⟨v, q, hs⟩ := prog _ _ hr hc
    cases hg : g b v with
    | more b' => exact absurd (.more _ _ _ _ _ hs hg) (hn _)
    | stop b' => exact absurd (.stop _ _ _ _ _ hs hg) (hn _)
  | close b =>
    obtain ⟨vs, hr, _⟩ := hi
    exact absurd (.close _ _ (reach_cancelled _ _ _ _ hr)) (hn _)
  | drain b =>
    obtain ⟨_, vs, hr⟩ := hi
    have hc : ¬ p.closed := fun hc => hn _ (.fin _ _ hc)
    obtain ⟨v, q, hs⟩ := prog _ _ hr hc
    exact absurd (.drain _ _ _ _ hs) (hn _)

/-- subtraction that fails for a zero on the right -/
def demoSub (a b : Int) : Except Unit Int := if b = 0 then .error () else .ok (a - b)

example : foldValues demoSub [1, 2, 3] = .ok (some (-4)) := by rfl
example : foldValues demoSub [] = .ok none := by rfl
example : foldValues demoSub [1, 0, 3] = .error () := by rfl
example : runningFolds demoSub [1, 2, 3] = .ok [1, -1, -4] := by rfl

/-- a run of the reduction -/
example : Reads (reduceStep demoSub) (.values [1, 2]) (.ok none) (.src [] true true, .fin (.ok (some (-1)))) := by
  have h1 := (Reads.start (g := reduceStep demoSub) (P := .values [1, 2]) (a := .ok none)).step (.more _ _ _ _ _ (.srcSend _ _ _) rfl)
  have h2 := h1.step (.more _ _ _ _ _ (.srcSend _ _ _) rfl)
  have h3 := h2.step (.tau _ _ _ (.srcEnd _))
  have h4 := h3.step (.eof _ _ rfl)
  have h5 := h4.step (.close _ _ rfl)
  exact h5.step (.fin _ _ rfl)

end Iv

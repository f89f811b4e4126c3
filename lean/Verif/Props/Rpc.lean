import Verif.Model.Rpc
/-
C81: a remote call is the call in the interpreter of the server.
-/
namespace Iv
variable {σ P X Fun D : Type}

/-! ### Specification -/

/-- In the state `s` of the interpreter, evaluating the text `fn` and calling the function with the arguments gives `r` and the state `s'`. -/
inductive HostCall (H : RpcHost σ P X Fun D) (c : RpcArgs D) (s : σ) : Res D → σ → Prop
  | unparsed {e s'} : H.parse c.fn s = (.error e, s') → HostCall H c s (.error e) s'
  | several {ps s'} : H.parse c.fn s = (.ok ps, s') → ps.length ≠ 1 → HostCall H c s (.error .err) s'
  | failed {p e s' s''} : H.parse c.fn s = (.ok [p], s') → H.eval p s' = (.error e, s'') → HostCall H c s (.error e) s''
  | value {p x s' s''} : H.parse c.fn s = (.ok [p], s') → H.eval p s' = (.ok x, s'') → H.toFn x = none → HostCall H c s (.error .err) s''
  | called {p x f r s' s'' s'''} : H.parse c.fn s = (.ok [p], s') → H.eval p s' = (.ok x, s'') → H.toFn x = some f →
      H.call f c.l c.r s'' = (r, s''') → HostCall H c s r s'''

/-- Calls one after the other, each in the state that the one before has left. -/
inductive HostCalls (H : RpcHost σ P X Fun D) : σ → List (RpcArgs D) → List (Res D) → σ → Prop
  | nil (s) : HostCalls H s [] [] s
  | cons {s s' s'' c cs r rs} : HostCall H c s r s' → HostCalls H s' cs rs s'' → HostCalls H s (c :: cs) (r :: rs) s''

/-- the values of the call can be sent -/
def RpcArgs.CanSend (sendable : D → Bool) (c : RpcArgs D) : Prop := sendable c.r = true ∧ ∀ v, c.l = some v → sendable v = true

/-- a result that comes back: an error, or a value that can be sent -/
def ComesBack (sendable : D → Bool) (r : Res D) : Prop := r = .error .err ∨ ∃ v, r = .ok v ∧ sendable v = true

/-- what the server makes of the calls of a connection: a call without left argument gets that of the call before -/
def stale : Option D → List (RpcArgs D) → List (RpcArgs D)
  | _, [] => []
  | l, c :: cs => { c with l := c.l <|> l } :: stale (c.l <|> l) cs

/-- no call without a left argument comes after one with a left argument -/
def LeftsLast (cs : List (RpcArgs D)) : Prop := cs.Pairwise (fun a b => a.l.isSome → b.l.isSome)

/-! ### Proofs -/

theorem hostCall_iff (H : RpcHost σ P X Fun D) (c : RpcArgs D) (s : σ) (r : Res D) (s' : σ) : HostCall H c s r s' ↔ rpcExec H c.req s = (r, s') := by
  have e0 : rpcExec H c.req s = rpcEval H c.l c.r (H.parse c.fn s) := rfl
  rw [e0]
  constructor
  · intro h
    cases h with
    | unparsed h => rw [h]; rfl
    | @several ps _ h hl =>
      rw [h]
      match ps, hl with
      | [], _ => rfl
      | [p], hl => exact absurd rfl hl
      | _ :: _ :: _, _ => rfl
    | failed h h2 => rw [h]; show rpcApply H c.l c.r (H.eval _ _) = _; rw [h2]; rfl
    | value h h2 h3 => rw [h]; show rpcApply H c.l c.r (H.eval _ _) = _; rw [h2]; simp only [rpcApply, h3]
    | called h h2 h3 h4 => rw [h]; show rpcApply H c.l c.r (H.eval _ _) = _; rw [h2]; simp only [rpcApply, h3]; exact h4
  · intro h
    rcases hp : H.parse c.fn s with ⟨ps, s1⟩
    rw [hp] at h
    match ps, h with
    | .error e, h => cases h; exact .unparsed hp
    | .ok [], h => cases h; exact .several hp (by simp)
    | .ok (_ :: _ :: _), h => cases h; exact .several hp (by simp)
    | .ok [p], h =>
      replace h : rpcApply H c.l c.r (H.eval p s1) = (r, s') := h
      rcases he : H.eval p s1 with ⟨x, s2⟩
      rw [he] at h
      match x, h with
      | .error e, h => cases h; exact .failed hp he
      | .ok x, h =>
        simp only [rpcApply] at h
        cases hf : H.toFn x with
        | none => rw [hf] at h; cases h; exact .value hp he hf
        | some f => rw [hf] at h; exact .called hp he hf h

/-- The interpreter always gives exactly one result. -/
theorem hostCall_exists (H : RpcHost σ P X Fun D) (c : RpcArgs D) (s : σ) : ∃ r s', HostCall H c s r s' :=
  ⟨_, _, (hostCall_iff H c s _ _).2 rfl⟩

theorem respond_back (sendable : D → Bool) (q : RpcReq D) (r : Res D) (s : σ) (h : ComesBack sendable r) :
    rpcRespond sendable q (r, s) = (r, ⟨true, true, q, s⟩) := by
  rcases h with rfl | ⟨v, rfl, hv⟩
  · rfl
  · simp only [rpcRespond, hv, if_true]

theorem req_sendable (sendable : D → Bool) (c : RpcArgs D) (h : c.CanSend sendable) : c.req.sendable sendable = true := by
  unfold RpcReq.sendable RpcArgs.req
  cases hl : c.l with
  | none => simp [h.1]
  | some v => simp [h.1, h.2 v hl]

theorem calls_exact (H : RpcHost σ P X Fun D) (sendable : D → Bool) : ∀ (cs : List (RpcArgs D)) (q : RpcReq D) (s : σ) (rs : List (Res D)) (s' : σ),
    (∀ c ∈ cs, c.fn ≠ "" ∧ c.CanSend sendable) → HostCalls H s (stale q.l cs) rs s' → (∀ r ∈ rs, ComesBack sendable r) →
    ∃ q', rpcCalls H sendable ⟨true, true, q, s⟩ cs = (rs, ⟨true, true, q', s'⟩)
  | [], q, s, rs, s', _, h, _ => by cases h; exact ⟨q, rfl⟩
  | c :: cs, q, s, rs, s', hc, h, hr => by
    cases h with
    | @cons _ s1 _ _ _ r rs h1 h2 =>
      obtain ⟨hn, hs⟩ := hc c (List.mem_cons_self ..)
      have em : gobMerge q c.req = ({ c with l := c.l <|> q.l } : RpcArgs D).req := by
        simp only [gobMerge, RpcArgs.req, hn, if_false]
        rfl
      have e1 : rpcCall H sendable ⟨true, true, q, s⟩ c.req = (r, ⟨true, true, gobMerge q c.req, s1⟩) := by
        unfold rpcCall
        simp only [Bool.and_self, if_true, req_sendable sendable c hs]
        rw [em, (hostCall_iff H _ s r s1).1 h1]
        exact respond_back sendable _ r s1 (hr r (List.mem_cons_self ..))
      obtain ⟨q', e2⟩ := calls_exact H sendable cs (gobMerge q c.req) s1 rs s' (fun c' hc' => hc c' (List.mem_cons_of_mem _ hc')) h2
        (fun r' hr' => hr r' (List.mem_cons_of_mem _ hr'))
      refine ⟨q', ?_⟩
      simp only [rpcCalls, e1, e2]

/-- Calls on a connection give what the same calls give in the interpreter of the server, where a call without left argument gets the last left
argument that was sent on this connection. -/
theorem C81_exact (H : RpcHost σ P X Fun D) (sendable : D → Bool) (cs : List (RpcArgs D)) (s s' : σ) (rs : List (Res D))
    (hc : ∀ c ∈ cs, c.fn ≠ "" ∧ c.CanSend sendable) (h : HostCalls H s (stale none cs) rs s') (hr : ∀ r ∈ rs, ComesBack sendable r) :
    ∃ k, rpcCalls H sendable ⟨true, true, .zero, s⟩ cs = (rs, k) ∧ k.host = s' ∧ k.up = true ∧ k.alive = true := by
  obtain ⟨q', e⟩ := calls_exact H sendable cs .zero s rs s' hc h hr
  exact ⟨_, e, rfl, rfl, rfl⟩

theorem stale_left : ∀ (cs : List (RpcArgs D)) (v : D), (∀ c ∈ cs, c.l.isSome) → stale (some v) cs = cs
  | [], _, _ => rfl
  | c :: cs, v, h => by
    obtain ⟨w, hw⟩ := Option.isSome_iff_exists.1 (h c (List.mem_cons_self ..))
    simp only [stale, hw]
    rw [show ((some w : Option D) <|> some v) = some w from rfl]
    rw [stale_left cs w (fun c' hc => h c' (List.mem_cons_of_mem _ hc))]
    congr 1
    cases c
    simp only at hw
    subst hw
    rfl

theorem stale_none : ∀ (cs : List (RpcArgs D)), LeftsLast cs → stale none cs = cs
  | [], _ => rfl
  | c :: cs, h => by
    obtain ⟨h1, h2⟩ := List.pairwise_cons.1 h
    cases hl : c.l with
    | none =>
      simp only [stale, hl]
      rw [show ((none : Option D) <|> none) = none from rfl, stale_none cs h2]
      congr 1
      cases c
      simp only at hl
      subst hl
      rfl
    | some v =>
      simp only [stale, hl]
      rw [show ((some v : Option D) <|> none) = some v from rfl]
      rw [stale_left cs v (fun c' hc => h1 c' hc (by rw [hl]; rfl))]
      congr 1
      cases c
      simp only at hl
      subst hl
      rfl

/-- Calls on a connection give what they give in the interpreter of the server, if no call without a left argument follows one with. -/
theorem C81_calls (H : RpcHost σ P X Fun D) (sendable : D → Bool) (cs : List (RpcArgs D)) (s s' : σ) (rs : List (Res D))
    (hc : ∀ c ∈ cs, c.fn ≠ "" ∧ c.CanSend sendable) (hl : LeftsLast cs) (h : HostCalls H s cs rs s') (hr : ∀ r ∈ rs, ComesBack sendable r) :
    ∃ k, rpcCalls H sendable ⟨true, true, .zero, s⟩ cs = (rs, k) ∧ k.host = s' ∧ k.up = true ∧ k.alive = true :=
  C81_exact H sendable cs s s' rs hc (by rw [stale_none cs hl]; exact h) hr

/-- Connections are served one after the other: if the calls of each are as in `C81_calls`, the clients get what their calls give in the interpreter,
all the calls of a client before those of the next. -/
theorem C81_serve (H : RpcHost σ P X Fun D) (sendable : D → Bool) : ∀ (css : List (List (RpcArgs D))) (s s' : σ) (rs : List (Res D)),
    (∀ cs ∈ css, LeftsLast cs ∧ ∀ c ∈ cs, c.fn ≠ "" ∧ c.CanSend sendable) → HostCalls H s css.flatten rs s' → (∀ r ∈ rs, ComesBack sendable r) →
    ∃ rss, rpcServe H sendable (true, s) css = (rss, (true, s')) ∧ rss.flatten = rs ∧ rss.length = css.length
  | [], s, s', rs, _, h, _ => by cases h; exact ⟨[], rfl, rfl, rfl⟩
  | cs :: css, s, s', rs, hc, h, hr => by
    have split : ∀ (as bs : List (RpcArgs D)) (s s' : σ) (rs : List (Res D)), HostCalls H s (as ++ bs) rs s' →
        ∃ r1 r2 s1, rs = r1 ++ r2 ∧ HostCalls H s as r1 s1 ∧ HostCalls H s1 bs r2 s' := by
      intro as
      induction as with
      | nil => intro bs s s' rs h; exact ⟨[], rs, s, rfl, .nil s, h⟩
      | cons a as ih =>
        intro bs s s' rs h
        cases h with
        | cons h1 h2 =>
          obtain ⟨r1, r2, s1, e, h3, h4⟩ := ih _ _ _ _ h2
          exact ⟨_ :: r1, r2, s1, by rw [e]; rfl, .cons h1 h3, h4⟩
    rw [List.flatten_cons] at h
    obtain ⟨r1, r2, s1, rfl, h1, h2⟩ := split _ _ _ _ _ h
    obtain ⟨hl, hs⟩ := hc cs (List.mem_cons_self ..)
    obtain ⟨k, e1, e2, _, e4⟩ := C81_calls H sendable cs s s1 r1 hs hl h1 (fun r hr' => hr r (List.mem_append_left _ hr'))
    obtain ⟨rss, e5, e6, e7⟩ := C81_serve H sendable css s1 s' r2 (fun cs' h' => hc cs' (List.mem_cons_of_mem _ h')) h2
      (fun r hr' => hr r (List.mem_append_right _ hr'))
    refine ⟨r1 :: rss, ?_, by rw [List.flatten_cons, e6], by simp [e7]⟩
    simp only [rpcServe, e1, e2, e4, e5]

/-- A connection that is closed gives errors, and the server is not reached. -/
theorem C81_closed (H : RpcHost σ P X Fun D) (sendable : D → Bool) : ∀ (cs : List (RpcArgs D)) (k : RpcLink σ D), (k.up && k.alive) = false →
    rpcCalls H sendable k cs = (List.replicate cs.length (.error .err), k)
  | [], _, _ => rfl
  | c :: cs, k, h => by
    have e : rpcCall H sendable k c.req = (.error .err, k) := by unfold rpcCall; rw [h]; rfl
    simp only [rpcCalls, e, C81_closed H sendable cs k h]
    rfl

/-- A value that cannot be sent is an error; the server is not reached, and the connection is closed. -/
theorem C81_not_sendable (H : RpcHost σ P X Fun D) (sendable : D → Bool) (k : RpcLink σ D) (c : RpcArgs D) (hc : ¬ c.CanSend sendable) :
    (rpcCall H sendable k c.req).1 = .error .err ∧ (rpcCall H sendable k c.req).2.host = k.host ∧
      ((rpcCall H sendable k c.req).2.up && (rpcCall H sendable k c.req).2.alive) = false := by
  have hs : c.req.sendable sendable = false := by
    cases h : c.req.sendable sendable with
    | false => rfl
    | true =>
      refine absurd ?_ hc
      unfold RpcReq.sendable RpcArgs.req at h
      simp only [Bool.and_eq_true] at h
      exact ⟨by simpa using h.2, fun v hv => by have := h.1; rw [hv] at this; simpa using this⟩
  unfold rpcCall
  rw [hs]
  cases h : (k.up && k.alive) with
  | false => exact ⟨rfl, rfl, h⟩
  | true => exact ⟨rfl, rfl, rfl⟩

/-- A result that cannot be sent is an error, although the function has been called; the connection is closed. -/
theorem C81_result_not_sendable (H : RpcHost σ P X Fun D) (sendable : D → Bool) (s s' : σ) (c : RpcArgs D) (v : D) (hn : c.fn ≠ "") (hc : c.CanSend sendable)
    (h : HostCall H c s (.ok v) s') (hv : sendable v = false) :
    ∃ k, rpcCall H sendable ⟨true, true, .zero, s⟩ c.req = (.error .err, k) ∧ k.host = s' ∧ k.up = false ∧ k.alive = true := by
  have em : gobMerge .zero c.req = c.req := by
    simp only [gobMerge, RpcArgs.req, RpcReq.zero, hn, if_false]
    cases c.l <;> rfl
  refine ⟨⟨false, true, c.req, s'⟩, ?_, rfl, rfl, rfl⟩
  unfold rpcCall
  simp only [Bool.and_self, if_true, req_sendable sendable c hc, em]
  rw [(hostCall_iff H c s _ s').1 h]
  simp only [rpcRespond, hv, Bool.false_eq_true, if_false]

/-- Exception: a call that crashes ends the server: all later calls of all clients are errors, and are not executed. -/
theorem C81_crash (H : RpcHost σ P X Fun D) (sendable : D → Bool) (s s' : σ) (c : RpcArgs D) (hn : c.fn ≠ "") (hc : c.CanSend sendable)
    (h : HostCall H c s (.error .panic) s') (cs : List (RpcArgs D)) (css : List (List (RpcArgs D))) :
    rpcServe H sendable (true, s) ((c :: cs) :: css) =
      ((List.replicate (c :: cs).length (.error .err)) :: css.map (fun cs => List.replicate cs.length (.error .err)), (false, s')) := by
  have em : gobMerge .zero c.req = c.req := by
    simp only [gobMerge, RpcArgs.req, RpcReq.zero, hn, if_false]
    cases c.l <;> rfl
  have e : rpcCall H sendable ⟨true, true, .zero, s⟩ c.req = (.error .err, ⟨false, false, c.req, s'⟩) := by
    unfold rpcCall
    simp only [Bool.and_self, if_true, req_sendable sendable c hc, em]
    rw [(hostCall_iff H c s _ s').1 h]
    rfl
  have dead : ∀ css : List (List (RpcArgs D)), rpcServe H sendable (false, s') css = (css.map (fun cs => List.replicate cs.length (.error .err)), (false, s')) := by
    intro css
    induction css with
    | nil => rfl
    | cons cs css ih =>
      simp only [rpcServe, C81_closed H sendable cs ⟨false, false, .zero, s'⟩ rfl, ih]
      rfl
  simp only [rpcServe, rpcCalls, e, C81_closed H sendable cs ⟨false, false, c.req, s'⟩ rfl, dead]
  rfl

/-- `rpc→call (C;f;R;)` and `rpc→call (C;f;L;R;)` -/
theorem C81_arguments (c : Nat) (f : String) (x y : RpcItem D) :
    rpcParse none (some [.conn c, .str f, x]) = .ok (.call c f none x) ∧ rpcParse none (some [.conn c, .str f, x, y]) = .ok (.call c f (some x) y) ∧
      (∀ l r, rpcParse (some l) r = (.error .err : Res (RpcCmd D))) ∧
      (∀ l : List (RpcItem D), l.length < 3 ∨ 4 < l.length → rpcParse none (some l) = .error .err) := by
  refine ⟨rfl, rfl, fun _ _ => rfl, ?_⟩
  intro l hl
  match l, hl with
  | [], _ => rfl
  | [_], _ => simp [rpcParse]
  | [_, _], _ => simp [rpcParse]
  | [_, _, _], hl => simp at hl
  | [_, _, _, _], hl => simp at hl
  | _ :: _ :: _ :: _ :: _ :: _, _ => simp [rpcParse]

/-! ### Examples -/
namespace RpcDemo

/-- a server that knows `-`; the state counts the calls, and values above 100 cannot be sent -/
def host : RpcHost Nat String String Unit Int where
  parse := fun t s => (.ok [t], s)
  eval := fun p s => (.ok p, s)
  toFn := fun p => if p = "-" then some () else none
  call := fun _ l r s => (if r = 0 then .error .panic else .ok (match l with | none => -r | some l => l - r), s + 1)

def small (n : Int) : Bool := n ≤ 100

example : HostCalls host 0 [⟨"-", none, 5⟩, ⟨"x", none, 5⟩, ⟨"-", some 7, 5⟩] [.ok (-5), .error .err, .ok 2] 2 := by
  refine .cons ((hostCall_iff _ _ _ _ _).2 rfl) (.cons ((hostCall_iff _ _ _ _ _).2 rfl) (.cons ((hostCall_iff _ _ _ _ _).2 rfl) (.nil _)))

example : LeftsLast [(⟨"-", none, 5⟩ : RpcArgs Int), ⟨"x", none, 5⟩, ⟨"-", some 7, 5⟩] := by simp [LeftsLast]

/-- Exception: after `7-5`, the remote `-5` is `7-5`. -/
theorem C81_stale_left :
    HostCalls host 0 [⟨"-", some 7, 5⟩, ⟨"-", none, 5⟩] [.ok 2, .ok (-5)] 2 ∧
      (rpcCalls host small ⟨true, true, .zero, 0⟩ [⟨"-", some 7, 5⟩, ⟨"-", none, 5⟩]).1 = [.ok 2, .ok 2] := by
  refine ⟨.cons ((hostCall_iff _ _ _ _ _).2 rfl) (.cons ((hostCall_iff _ _ _ _ _).2 rfl) (.nil _)), rfl⟩

/-- Exception: an empty function is the one before. -/
theorem C81_stale_function :
    HostCalls host 0 [⟨"-", none, 5⟩, ⟨"", none, 6⟩] [.ok (-5), .error .err] 1 ∧
      (rpcCalls host small ⟨true, true, .zero, 0⟩ [⟨"-", none, 5⟩, ⟨"", none, 6⟩]).1 = [.ok (-5), .ok (-6)] := by
  refine ⟨.cons ((hostCall_iff _ _ _ _ _).2 rfl) (.cons ((hostCall_iff _ _ _ _ _).2 rfl) (.nil _)), rfl⟩

example : HostCall host ⟨"-", none, 0⟩ 3 (.error .panic) 4 := (hostCall_iff _ _ _ _ _).2 rfl

example : ¬ (⟨"-", none, 200⟩ : RpcArgs Int).CanSend small := by rintro ⟨h, _⟩; cases h

end RpcDemo
end Iv

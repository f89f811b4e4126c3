import Verif.Lemmas.CalcProgram
import Verif.Props.Format
/-
C92: programs of the specification are evaluated one statement after the other.
-/
namespace Iv
variable {V O H : Type}

/-! ### Names -/

mutual
theorem tm_mono {v f v' f' : String → Prop} (hv : ∀ x, v x → v' x) (hf : ∀ x, f x → f' x) : (t : Calc.Tm) → t.Uses v f → t.Uses v' f'
  | .num _ _, h => h
  | .var x, h => hv x h
  | .mon g _ r, h => ⟨fn_mono hv hf g h.1, tm_mono hv hf r h.2⟩
  | .dya l g _ r, h => ⟨tm_mono hv hf l h.1, fn_mono hv hf g h.2.1, tm_mono hv hf r h.2.2⟩

theorem fn_mono {v f v' f' : String → Prop} (hv : ∀ x, v x → v' x) (hf : ∀ x, f x → f' x) : (g : Calc.Fn) → g.Uses v f → g.Uses v' f'
  | .prim _, _ => trivial
  | .name x, h => hf x h
  | .lam b, h => body_mono hv hf b h

theorem body_mono {v f v' f' : String → Prop} (hv : ∀ x, v x → v' x) (hf : ∀ x, f x → f' x) : (b : Calc.Body) → b.Uses v f → b.Uses v' f'
  | .ret t, h => tm_mono hv hf t h
  | .set x t b, h => ⟨hv x h.1, h.2.1, tm_mono hv hf t h.2.2.1, body_mono hv hf b h.2.2.2⟩
  | .guard c t b, h => ⟨tm_mono hv hf c h.1, tm_mono hv hf t h.2.1, body_mono hv hf b h.2.2⟩
end

theorem stmt_mono {v f v' f' : String → Prop} (hv : ∀ x, v x → v' x) (hf : ∀ x, f x → f' x) (s : Calc.Stmt) (h : s.Uses v f) : s.Uses v' f' := by
  cases s with
  | shw t => exact tm_mono hv hf t h
  | set x t => exact ⟨hv x h.1, h.2.1, tm_mono hv hf t h.2.2⟩
  | fn g b => exact ⟨hf g h.1, body_mono hv hf b h.2⟩

/-! ### Evaluation -/

theorem Agrees.write {sys : Sys (AVal V O) H} {s : St (AVal V O) H} {c : Calc.Scope} (h : Agrees sys s c) (out) :
    Agrees sys { s with out := out } c where
  wf := ⟨h.wf.cur, h.wf.parent⟩
  origin := h.origin
  vals := h.vals
  fns := h.fns

theorem assign_is (x : String) (t : Expr (AVal V O)) : isAssignment (assignExpr x t) = true := rfl

variable (e : StdEnv V O) (ident : Func (AVal V O) → Option (UItem V O)) (sys : Sys (AVal V O) H)

/-- A program shows the values of the specification. -/
theorem runs_prog (hs : StdSys e ident sys) (hna : isVarname sys "⍺" = some false) (hnw : isVarname sys "⍵" = some false)
    {c c' : Calc.Scope} {p : List Calc.Stmt} {out : List (Arr Int)} (h : Calc.Prints c p out c')
    (hu : ∀ s ∈ p, s.Uses (VName sys) (FName sys)) (s : St (AVal V O) H) (ha : Agrees sys s c) :
    ∃ s' vs, RunsWriting sys (p.map Calc.Stmt.expr) s (.ok ()) s' ∧ s'.out = s.out ++ vs.map .data ∧ List.Forall₂ Shows vs out ∧
      Agrees sys s' c' ∧ s'.pp = s.pp ∧ s'.cur = s.cur ∧ s'.heap = s.heap := by
  induction h generalizing s with
  | nil c => exact ⟨s, [], .nil s, by simp, .nil, ha, rfl, rfl, rfl⟩
  | shw c t a p out c' h1 _ ih =>
    obtain ⟨u, s1, e1, e2, e3⟩ := realized e ident sys hs hna hnw h1 (hu (.shw t) (by simp)) s ha
    obtain ⟨s', vs, r1, r2, r3, r4, r5, r6, r7⟩ := ih (fun x hx => hu x (by simp [hx])) { s1 with out := s1.out ++ [.data u] }
      ((ha.later e3).write _)
    refine ⟨s', u :: vs, .write _ _ _ _ s1 _ _ (tm_not_assign t) e1 r1, ?_, .cons e2 r3, r4, r5.trans e3.pp, r6.trans e3.cur, r7.trans e3.heap⟩
    rw [r2]
    show s1.out ++ [.data u] ++ vs.map .data = _
    rw [e3.out]
    simp
  | set c x t a p out c' h1 _ ih =>
    have hx := hu (.set x t) (by simp)
    obtain ⟨u, s1, e1, e2, e3⟩ := realized e ident sys hs hna hnw h1 hx.2.2 s ha
    have ha1 := ha.later e3
    have hm := moved_bindVar ha1.wf x (.data u)
    obtain ⟨s', vs, r1, r2, r3, r4, r5, r6, r7⟩ := ih (fun y hy => hu y (by simp [hy])) (bindVar s1 x (.data u)) (ha1.set hx.1 e2)
    refine ⟨s', vs, .assign _ _ _ (.data u) (bindVar s1 x (.data u)) _ _ (assign_is x _)
      (eval_assign sys x (.var x) t.expr (.inl rfl) hx.1.1 hx.2.1 s s1 (.data u) e1 (fun n => hs.copy _ _ _ _ e2) hx.1.2.2) r1,
      ?_, r3, r4, r5.trans (hm.pp.trans e3.pp), r6.trans (hm.cur.trans e3.cur), r7.trans (hm.heap.trans e3.heap)⟩
    rw [r2, hm.out, e3.out]
  | fn c f b p out c' _ ih =>
    have hx := hu (.fn f b) (by simp)
    have hm := moved_bindVar ha.wf f (.fn (.lam (some b.guards)))
    obtain ⟨s', vs, r1, r2, r3, r4, r5, r6, r7⟩ := ih (fun y hy => hu y (by simp [hy])) (bindVar s f (.fn (.lam (some b.guards)))) (ha.def hx.1 hx.2)
    have hne : f ≠ "⍺" := fname_not hx.1 hna
    refine ⟨s', vs, .assign _ _ _ (.fn (.lam (some b.guards))) (bindVar s f (.fn (.lam (some b.guards)))) _ _ rfl
      (eval_assign sys f (.fn (.fvar f)) (.fn (.lam (some b.guards))) (.inr rfl) hx.1.1 hne s s (.fn (.lam (some b.guards)))
        ⟨1, rfl⟩ (fun n => hs.copyFn _ _ _) hx.1.2.2) r1,
      ?_, r3, r4, r5.trans hm.pp, r6.trans hm.cur, r7.trans hm.heap⟩
    rw [r2, hm.out]

/-! ### Text -/

theorem item_text {x : UItem V O} {n : Int} (h : ItemIs x n) : itemText e.text 0 x = Calc.showInt n := by
  have hi : intText 0 n = Calc.showInt n := (C71_text 0 n).1 (by decide) (by decide)
  rcases h with rfl | ⟨b, rfl, rfl⟩
  · exact hi
  · cases b <;> rfl

theorem join_text : ∀ {d : List (UItem V O)} {l : List Int}, List.Forall₂ ItemIs d l →
    joinText [' '] (d.map (itemText e.text 0)) = Calc.showList l := by
  intro d l h
  induction h with
  | nil => rfl
  | cons h1 h2 ih =>
    rename_i x n d l
    cases h2 with
    | nil => simp [joinText, Calc.showList, item_text e h1]
    | cons h3 h4 =>
      simp only [List.map_cons, joinText, Calc.showList] at ih ⊢
      rw [ih, item_text e h1]
      simp

/-- the text of a number or a vector -/
theorem shows_text {v : AVal V O} {a : Arr Int} (h : Shows v a) (hr : a.shape.length ≤ 1) : e.valText 0 v = .ok (Calc.showList a.data) := by
  cases h with
  | scalar x n h => simp [StdEnv.valText, Calc.showList, item_text e h]
  | arr k d a h1 h2 h3 _ h4 =>
    rcases a with ⟨sh, data⟩
    cases sh with
    | nil => exact absurd rfl h1
    | cons n ns =>
      cases ns with
      | nil =>
        simp only [StdEnv.valText, arrayText]
        rw [if_neg (by decide), if_neg (by decide), ← join_text e h4]
        rfl
      | cons m ms => simp at hr

end Iv

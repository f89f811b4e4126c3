import Verif.Lemmas.CalcState
import Verif.Props.Reduce
import Verif.Props.Decode
/-
C92: running the code of primitives and operators.
-/
namespace Iv
variable {D H : Type}

/-! ### The monad of interactions -/

theorem act_bind_ret {ρ : Type} (p : Act D H ρ) : p.bind (fun v => .ret (.ok v)) = p := by
  induction p with
  | ret r => cases r <;> rfl
  | call f l r k ih => simp only [Act.bind]; congr 1; funext x; exact ih x
  | exec e k ih => simp only [Act.bind]; congr 1; funext x; exact ih x
  | envCall f l r vars k ih => simp only [Act.bind]; congr 1; funext x; exact ih x
  | print v k ih => simp only [Act.bind]; congr 1
  | origin k ih => simp only [Act.bind]; congr 1; funext x; exact ih x
  | getH k ih => simp only [Act.bind]; congr 1; funext x; exact ih x
  | setH h k ih => simp only [Act.bind]; congr 1

theorem act_bind_assoc {ρ σ τ : Type} (p : Act D H ρ) (f : ρ → Act D H σ) (g : σ → Act D H τ) :
    (p.bind f).bind g = p.bind (fun v => (f v).bind g) := by
  induction p with
  | ret r => cases r <;> rfl
  | call f l r k ih => simp only [Act.bind]; congr 1; funext x; exact ih x
  | exec e k ih => simp only [Act.bind]; congr 1; funext x; exact ih x
  | envCall f l r vars k ih => simp only [Act.bind]; congr 1; funext x; exact ih x
  | print v k ih => simp only [Act.bind]; congr 1
  | origin k ih => simp only [Act.bind]; congr 1; funext x; exact ih x
  | getH k ih => simp only [Act.bind]; congr 1; funext x; exact ih x
  | setH h k ih => simp only [Act.bind]; congr 1

instance : LawfulMonad (Act D H) := LawfulMonad.mk' (Act D H)
  (id_map := fun p => act_bind_ret p)
  (pure_bind := fun _ _ => rfl)
  (bind_assoc := fun p f g => act_bind_assoc p f g)

theorem resume_bind {α ρ σ : Type} (m : EM D H α) (k : Except Fail α → EM D H ρ) (g : ρ → EM D H σ) :
    resume m (fun x => k x >>= g) = (resume m k >>= g) := by
  funext s
  unfold resume
  simp only [em_bind, tryEM]
  cases m s with
  | none => rfl
  | some p =>
    obtain ⟨r, s'⟩ := p
    cases r with
    | error x => cases x <;> rfl
    | ok a => rfl

theorem runAct_bind {ρ σ : Type} (rec : Rec D H) (p : Act D H ρ) (f : ρ → Act D H σ) :
    runAct rec (p.bind f) = (runAct rec p >>= fun v => runAct rec (f v)) := by
  induction p with
  | ret r => cases r <;> rfl
  | call g l r k ih =>
    simp only [Act.bind, runAct]
    rw [← resume_bind]
    congr 1; funext x; exact ih x
  | exec e k ih =>
    simp only [Act.bind, runAct]
    rw [← resume_bind]
    congr 1; funext x; exact ih x
  | envCall g l r vars k ih =>
    simp only [Act.bind, runAct]
    rw [← resume_bind]
    congr 1; funext x; exact ih x
  | print v k ih => funext s; simp only [Act.bind, runAct]; rw [ih]; rfl
  | origin k ih => funext s; simp only [Act.bind, runAct]; rw [ih]; rfl
  | getH k ih => funext s; simp only [Act.bind, runAct]; rw [ih]; rfl
  | setH h k ih => funext s; simp only [Act.bind, runAct]; rw [ih]; rfl

/-- The interactions end with the value `v`. -/
def Does {ρ : Type} (sys : Sys D H) (p : Act D H ρ) (s : St D H) (v : ρ) (s' : St D H) : Prop :=
  Yields (fun n => runAct (run sys n) p) s (.ok v) s'

theorem does_ret {ρ : Type} (sys : Sys D H) (v : ρ) (s : St D H) : Does sys (.ret (.ok v)) s v s := ⟨0, rfl⟩

theorem does_bind {ρ σ : Type} (sys : Sys D H) {p : Act D H ρ} {f : ρ → Act D H σ} {s s1 s2 : St D H} {v w}
    (h : Does sys p s v s1) (k : Does sys (f v) s1 w s2) : Does sys (p.bind f) s w s2 := by
  unfold Does
  have : (fun n => runAct (run sys n) (p.bind f)) = (fun n => runAct (run sys n) p >>= fun v => runAct (run sys n) (f v)) := by
    funext n; exact runAct_bind _ _ _
  rw [this]
  exact (yields_bind (mono_runAct sys p) (fun a => mono_runAct sys (f a)) s _ s2).mpr (.inl ⟨v, s1, h, k⟩)

/-- a call of a function that succeeds -/
theorem does_call {ρ : Type} (sys : Sys D H) {f l r} {k : Except Fail (IVal D) → Act D H ρ} {s s1 s2 : St D H} {v w}
    (h : Evals sys (.call f l r) s (.ok v) s1) (hk : Does sys (k (.ok v)) s1 w s2) : Does sys (.call f l r k) s w s2 := by
  obtain ⟨n, hn⟩ := h
  obtain ⟨m, hm⟩ := hk
  refine ⟨max n m, ?_⟩
  have e1 := le_run sys (Nat.le_max_left n m) _ _ _ hn
  have e2 := mono_runAct sys (k (.ok v)) m (max n m) (Nat.le_max_right _ _) _ _ hm
  show resume (run sys (max n m) (.call f l r)) (fun x => runAct (run sys (max n m)) (k x)) s = _
  unfold resume
  simp only [em_bind, tryEM, e1]
  exact e2

/-- the same for computations that may fail -/
def DoesE {ρ : Type} (sys : Sys D H) (p : ExceptT Fail (Act D H) ρ) (s : St D H) (v : ρ) (s' : St D H) : Prop :=
  Does sys p.run s (.ok v) s'

theorem doesE_pure {ρ : Type} (sys : Sys D H) (v : ρ) (s : St D H) : DoesE sys (pure v) s v s := does_ret sys _ s

theorem doesE_bind {ρ σ : Type} (sys : Sys D H) {p : ExceptT Fail (Act D H) ρ} {f : ρ → ExceptT Fail (Act D H) σ} {s s1 s2 : St D H} {v w}
    (h : DoesE sys p s v s1) (k : DoesE sys (f v) s1 w s2) : DoesE sys (p >>= f) s w s2 := by
  unfold DoesE
  exact does_bind (f := fun x => ExceptT.bindCont f x) sys h k

/-! ### Reduction -/
variable {V O : Type}

/-- the groups of the elements -/
def rowGroups {α : Type} (n : Nat) (data : List α) : List (List α) :=
  (List.range (data.length / n)).map (fun i => (data.drop (i * n)).take n)

theorem lines_last {α : Type} (a : Arr α) (hw : a.WF) (ls : List Nat) (n : Nat) (hn : 0 < n) (hs : a.shape = ls ++ [n]) :
    (allIdx ls).map (fun idx => a.line ls.length idx) = rowGroups n a.data := by
  have hd : a.data.length = size ls * n := by rw [hw, hs, size_append]; simp [size]
  unfold rowGroups
  rw [hd, Nat.mul_div_cancel _ hn]
  rw [allIdx_eq, List.map_map]
  apply List.map_congr_left
  intro i hi
  have hi' : i < size ls := by simpa using hi
  show a.line ls.length (unflat ls i) = _
  rw [line_last a hw ls n hs _ (unflat_inB hi'), flat_unflat hi']

end Iv

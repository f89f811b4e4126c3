import Verif.Lemmas.FormatScan
import Mathlib.Data.List.Forall2
import Mathlib.Tactic.Choose
import Mathlib.Data.List.Induction
/-
The texts of arrays are blocks that `ScanRankArray` reads.
-/
namespace Iv
variable {V O : Type}

theorem joinText_snoc (sep : List Char) (us : List (List Char)) (u : List Char) (h : us ≠ []) :
    joinText sep (us ++ [u]) = joinText sep us ++ sep ++ u := by
  induction us with
  | nil => exact absurd rfl h
  | cons x xs ih =>
    cases xs with
    | nil => rfl
    | cons y ys =>
      rw [List.cons_append, List.cons_append, joinText, ← List.cons_append, ih (List.cons_ne_nil _ _), joinText]
      simp only [List.append_assoc]

theorem skip_breaks (env : TextEnv V O) (ok : env.Ok) (c : Char) (t : List Char) (h : skipped env c = true) : Breaks (c :: t) := by
  intro d hd
  cases hd
  intro hn
  rw [skipped_number env ok _ hn] at h
  cases h

theorem run_join (env : TextEnv V O) (ok : env.Ok) (c : Char) (hc : closesAxis c = false) (hs : skipped env c = true) (ds : List Nat)
    (yss : List (List (UItem V O))) (us : List (List Char)) (h : List.Forall₂ (fun ys u => Blk env true ds 0 ys u) yss us) :
    Blk env false ds us.length yss.flatten (joinText [c] us) := by
  induction us using List.reverseRecOn generalizing yss with
  | nil => cases h; exact .nil ds
  | append_singleton us u ih =>
    obtain ⟨ys1, ys2, h1, h2, rfl⟩ : ∃ a b, List.Forall₂ (fun ys u => Blk env true ds 0 ys u) a us ∧ List.Forall₂ (fun ys u => Blk env true ds 0 ys u) b [u] ∧ yss = a ++ b := by
      refine ⟨yss.take us.length, yss.drop us.length, ?_, ?_, (List.take_append_drop _ _).symm⟩
      · have := List.forall₂_take us.length h
        rwa [List.take_left] at this
      · have := List.forall₂_drop us.length h
        rwa [List.drop_left] at this
    cases h2 with
    | cons hb hn =>
      cases hn
      rename_i ys
      rw [List.length_append, List.length_singleton, List.flatten_append, List.flatten_singleton]
      by_cases he : us = []
      · subst he
        cases h1
        have := Blk.snoc ds 0 [] [] ys u (.nil ds) hb (fun h => absurd rfl h)
        simpa [joinText] using this
      · rw [joinText_snoc _ _ _ he, List.append_assoc]
        exact Blk.snoc ds us.length _ _ ys (c :: u) (ih ys1 h1) (.skip c ds ys u hc hs hb) (fun _ _ => skip_breaks env ok c u hs)

theorem flatten_cells {α : Type} (xs : List α) (p d : Nat) : ((List.range d).map (fun i => (xs.drop (i * p)).take p)).flatten = xs.take (d * p) := by
  induction d with
  | zero => simp
  | succ d ih =>
    rw [List.range_succ, List.map_append, List.flatten_append, ih]
    simp only [List.map_cons, List.map_nil, List.flatten_cons, List.flatten_nil, List.append_nil]
    rw [Nat.add_mul, Nat.one_mul, List.take_add]

theorem flatten_singles {α : Type} (xs : List α) : (xs.map (fun x => [x])).flatten = xs := by
  induction xs with
  | nil => rfl
  | cons x xs ih => simp [ih]

theorem items_forall2 (env : TextEnv V O) (f : UItem V O → List Char) (xs : List (UItem V O)) (h : ∀ x ∈ xs, Blk env true [] 0 [x] (f x)) :
    List.Forall₂ (fun ys u => Blk env true [] 0 ys u) (xs.map (fun x => [x])) (xs.map f) := by
  induction xs with
  | nil => exact .nil
  | cons x xs ih => exact .cons (h x List.mem_cons_self) (ih (fun y hy => h y (List.mem_cons_of_mem _ hy)))

theorem skip_bracket (env : TextEnv V O) : skipped env '[' = true := by simp [skipped]
theorem skip_comma (env : TextEnv V O) : skipped env ',' = true := by simp [skipped]

theorem mapM_ok_text {α β : Type} (l : List α) (f : α → Res β) (g : α → β) (h : ∀ a ∈ l, f a = .ok (g a)) : l.mapM f = .ok (l.map g) := by
  induction l with
  | nil => rfl
  | cons a l ih =>
    rw [List.mapM_cons, h a List.mem_cons_self, ih (fun b hb => h b (List.mem_cons_of_mem _ hb))]
    rfl

theorem jsonText_blk (env : TextEnv V O) (ok : env.Ok) (f : UItem V O → List Char) (ds : List Nat) (hd : ds ≠ []) (h0 : 0 ∉ ds)
    (xs : List (UItem V O)) (hx : ∀ x ∈ xs, Reads' env (f x) x) (hl : size ds ≤ xs.length) :
    ∃ t, jsonText ds (xs.map f) = .ok t ∧ Blk env true ds 0 (xs.take (size ds)) t := by
  induction ds generalizing xs with
  | nil => exact absurd rfl hd
  | cons d ds ih =>
    simp only [List.mem_cons, not_or] at h0
    cases ds with
    | nil =>
      simp only [size, Nat.mul_one] at hl ⊢
      refine ⟨_, by rw [jsonText, if_pos (by rwa [List.length_map]), ← List.map_take], ?_⟩
      refine .skip '[' _ _ _ (by decide) (skip_bracket env) ?_
      refine .block d [] _ _ ']' (by omega) ?_ (by decide)
      have := run_join env ok ',' (by decide) (skip_comma env) [] _ _ (items_forall2 env f (xs.take d) (fun x hx' => .item _ _ (hx x (List.mem_of_mem_take hx'))))
      rw [flatten_singles, List.length_map, List.length_take, Nat.min_eq_left hl] at this
      exact this
    | cons e es =>
      have hp : prod (e :: es) = size (e :: es) := prod_eq_size (List.cons_ne_nil _ _)
      have key : ∀ i, i < d → ∃ t, jsonText (e :: es) ((xs.map f).drop (i * size (e :: es))) = .ok t ∧
          Blk env true (e :: es) 0 ((xs.drop (i * size (e :: es))).take (size (e :: es))) t ∧ i * size (e :: es) ≤ xs.length := by
        intro i hi
        have hle : (i + 1) * size (e :: es) ≤ xs.length := by
          refine Nat.le_trans (Nat.mul_le_mul_right _ (by omega : i + 1 ≤ d)) ?_
          rw [size] at hl; exact hl
        rw [Nat.add_mul, Nat.one_mul] at hle
        obtain ⟨t, h1, h2⟩ := ih (List.cons_ne_nil _ _) h0.2 (xs.drop (i * size (e :: es))) (fun x hx' => hx x (List.mem_of_mem_drop hx'))
          (by rw [List.length_drop]; omega)
        rw [List.map_drop] at h1
        exact ⟨t, h1, h2, by omega⟩
      choose! T hT using key
      have hm : (List.range d).mapM (fun i =>
          if i * prod (e :: es) ≤ (xs.map f).length then jsonText (e :: es) ((xs.map f).drop (i * prod (e :: es))) else .error .panic)
          = (Except.ok ((List.range d).map T) : Res _) := by
        refine mapM_ok_text _ _ _ (fun i hi => ?_)
        obtain ⟨h1, _, h3⟩ := hT i (List.mem_range.1 hi)
        rw [hp, if_pos (by rwa [List.length_map]), h1]
      refine ⟨_, by rw [jsonText, hm]; rfl, ?_⟩
      refine .skip '[' _ _ _ (by decide) (skip_bracket env) ?_
      refine .block d (e :: es) _ _ ']' (by omega) ?_ (by decide)
      have hf : List.Forall₂ (fun ys u => Blk env true (e :: es) 0 ys u) ((List.range d).map (fun i => (xs.drop (i * size (e :: es))).take (size (e :: es)))) ((List.range d).map T) := by
        rw [List.forall₂_map_left_iff, List.forall₂_map_right_iff, List.forall₂_same]
        exact fun i hi => (hT i (List.mem_range.1 hi)).2.1
      have := run_join env ok ',' (by decide) (skip_comma env) (e :: es) _ _ hf
      rw [flatten_cells, List.length_map, List.length_range, ← size] at this
      exact this

/- ## Matlab notation -/

theorem run_ne {env : TextEnv V O} {ds : List Nat} {n : Nat} {xs : List (UItem V O)} {t : List Char} (h : Blk env false ds n xs t) (hn : n ≠ 0) : t ≠ [] := by
  cases h with
  | nil => exact absurd rfl hn
  | snoc _ n xs t ys u h1 h2 h3 => exact fun e => ((blk_dims h2).2.1 rfl).2.1 (List.append_eq_nil_iff.1 e).2

theorem breaks_left {t u : List Char} (h : Breaks (t ++ u)) : Breaks t := by
  intro c hc
  refine h c ?_
  cases t with
  | nil => cases hc
  | cons => exact hc

/-- a run starts with a block -/
theorem run_cons {env : TextEnv V O} {ds : List Nat} {ys : List (UItem V O)} {u : List Char} (hb : Blk env true ds 0 ys u)
    (b : Bool) (es : List Nat) (n : Nat) (xs : List (UItem V O)) (t : List Char) (h : Blk env b es n xs t) (hbf : b = false) (he : es = ds)
    (hbr : n ≠ 0 → ds = [] → Breaks t) : Blk env false ds (n + 1) (ys ++ xs) (u ++ t) := by
  induction h with
  | item => cases hbf
  | skip => cases hbf
  | block => cases hbf
  | nil es =>
    have := Blk.snoc ds 0 [] [] ys u (.nil _) hb (fun h => absurd rfl h)
    simpa using this
  | snoc es n xs t zs v h1 h2 h3 ih1 _ =>
    subst he
    have := Blk.snoc es (n + 1) _ _ zs v (ih1 rfl rfl (fun _ e => breaks_left (hbr (by omega) e))) h2 (fun _ e => by
      by_cases hn : n = 0
      · subst hn
        cases h1
        exact hbr (by decide) e
      · exact h3 hn e)
    simpa [List.append_assoc] using this

/-- an open text starts with a closed block -/
theorem open_cons {env : TextEnv V O} {k : Nat} {ds : List Nat} {ys xs : List (UItem V O)} {u t : List Char} (hb : Blk env true ds 0 ys u)
    (ho : Open' env ((k + 1) :: ds) xs t) (hbr : ds = [] → Breaks t) : Open' env ((k + 1 + 1) :: ds) (ys ++ xs) (u ++ t) := by
  generalize hk : (k + 1) :: ds = es at ho
  cases ho with
  | item => cases hk
  | block k' ds' xs' t' ys' u' hrun ho hb' =>
    cases hk
    have h1 := run_cons hb false ds k xs' t' hrun rfl rfl (fun _ e => breaks_left (hbr e))
    have := Open'.block (k + 1) ds _ _ ys' u' h1 ho (fun _ e => by
      by_cases hn : k = 0
      · subst hn
        cases hrun
        exact hbr e
      · exact hb' hn e)
    simpa [List.append_assoc] using this

theorem matRows_run (env : TextEnv V O) (ok : env.Ok) (f : UItem V O → List Char) (cols : Nat) (hc : 0 < cols)
    (xs : List (UItem V O)) (hx : ∀ x ∈ xs, Reads' env (f x) x) (rows left i off : Nat) (hl : 0 < left) (hi : i + left = rows)
    (hlen : off + left * cols ≤ xs.length) :
    ∃ t, matRows rows cols (xs.map f) left i off = .ok t ∧ Blk env false [cols] left ((xs.drop off).take (left * cols)) (t ++ [']']) := by
  induction left generalizing i off with
  | zero => omega
  | succ n ih =>
    rw [Nat.add_mul, Nat.one_mul] at hlen
    have hn : 0 ≤ n * cols := Nat.zero_le _
    have row : Blk env false [] cols ((xs.drop off).take cols) (joinText [','] (((xs.map f).drop off).take cols)) := by
      have := run_join env ok ',' (by decide) (skip_comma env) [] _ _
        (items_forall2 env f ((xs.drop off).take cols) (fun x hx' => .item _ _ (hx x (List.mem_of_mem_drop (List.mem_of_mem_take hx')))))
      rw [flatten_singles, List.length_map, List.length_take, List.length_drop, Nat.min_eq_left (by omega), List.map_take, List.map_drop] at this
      exact this
    by_cases h0 : n = 0
    · subst h0
      refine ⟨_, by rw [matRows, if_pos (by rw [List.length_map]; omega), matRows]; rfl, ?_⟩
      rw [if_neg (by omega), List.append_nil, List.append_nil]
      have := Blk.snoc [cols] 0 [] [] _ _ (.nil _) (Blk.block cols [] _ _ ']' hc row (by decide)) (fun h => absurd rfl h)
      simpa using this
    · obtain ⟨t, h1, h2⟩ := ih (i + 1) (off + cols) (by omega) (by omega) (by omega)
      refine ⟨_, by rw [matRows, if_pos (by rw [List.length_map]; omega), h1]; rfl, ?_⟩
      rw [if_pos (by omega)]
      have := run_cons (Blk.block cols [] _ _ ';' hc row (by decide)) false [cols] n _ _ h2 rfl rfl (fun _ h => by cases h)
      rw [Nat.add_mul, Nat.one_mul, Nat.add_comm (n * cols), List.take_add, List.drop_drop]
      simpa [List.append_assoc] using this

/-- a run of rows that is read from the beginning -/
theorem scan_run {env : TextEnv V O} (ok : env.Ok) {n cols : Nat} (hn : n ≠ 0) {xs : List (UItem V O)} {t : List Char} (h : Blk env false [cols] n xs t) :
    scanRank env (-1) t = .ok (.array (dropOnes [n, cols]) xs, []) := by
  have hd := blk_dims h
  have h0 := (hd.2.2 rfl hn).2
  simp only [List.mem_cons, List.not_mem_nil, or_false] at h0
  have hlen : xs.length = n * cols := by rw [hd.1]; simp [size]
  have := scanAll_first ok h (.inr hn) (.inl (by decide : (-1 : Int) < 0)) [] (fun _ _ h => by cases h) 0
  rw [List.append_nil] at this
  rw [scanRank, ← scanAll, this, scanAll_nil]
  by_cases h1 : n = 1
  · subst h1
    rw [finishRank_closed xs _ cols [] (hd.2.2 rfl (by decide)).1 (by rw [hlen]; simp [size])]
    have : dropOnes [1, cols] = [cols] := by
      rw [dropOnes, List.dropWhile_cons_of_pos (by rfl)]
      by_cases hc : cols = 1
      · subst hc; rfl
      · rw [List.dropWhile_cons_of_neg (by simpa using hc)]; rfl
    rw [this]
    rfl
  · have e : ([n, cols].dropWhile (· == 1)).tail = [cols] := by
      rw [List.dropWhile_cons_of_neg (by simpa using h1)]; rfl
    have := finishRank_open xs 1 [n, cols] (by simp only [List.mem_cons, List.not_mem_nil, or_false, not_or]; exact ⟨by omega, h0⟩) (by rw [hlen]; simp [size])
    rw [e] at this
    rw [List.length_singleton, this]
    rfl

/- ## Tables -/

theorem termText_nat (r : Nat) : termText (r : Int) = List.replicate r '\n' := by
  rw [termText]
  by_cases h : r = 0
  · subst h; rfl
  · rw [if_pos (by omega), Int.toNat_natCast]

/-- The loop writes the blocks of the last axes: `d - j` blocks from index `j` on. -/
theorem tabLoop_open (env : TextEnv V O) (ds : List Nat) (h0 : 0 ∉ ds) (hi hidx : List Nat) (cells : List (List Char)) (xs : List (UItem V O)) (more : List (List Char))
    (hc : List.Forall₂ (fun x t => Blk env true [] 0 [x] t ∧ Breaks t) xs cells) (hl : xs.length = size ds) :
    ∃ t, tabLoop (ds.reverse ++ hi) (List.replicate ds.length 0 ++ hidx) (cells ++ more) =
        t ++ termText (incTerm ds.length hi hidx).2 ++ tabLoop (ds.reverse ++ hi) (List.replicate ds.length 0 ++ (incTerm ds.length hi hidx).1) more ∧
      Open' env ds xs t ∧ Breaks t := by
  induction ds generalizing hi hidx cells xs more with
  | nil =>
    simp only [size] at hl
    obtain ⟨x, rfl⟩ := List.length_eq_one_iff.1 hl
    cases hc with
    | cons h1 h2 =>
      cases h2
      rename_i cell
      exact ⟨cell, rfl, .item x cell h1.1, h1.2⟩
  | cons d ds ih =>
    simp only [List.mem_cons, not_or] at h0
    have hpos := size_pos_of h0.2
    -- the blocks from index `j` on
    have loop : ∀ k j (xs : List (UItem V O)) (cells : List (List Char)), j + k + 1 = d →
        List.Forall₂ (fun x t => Blk env true [] 0 [x] t ∧ Breaks t) xs cells → xs.length = (k + 1) * size ds →
        ∃ t, tabLoop (ds.reverse ++ (d :: hi)) (List.replicate ds.length 0 ++ (j :: hidx)) (cells ++ more) =
          t ++ termText (incTerm (ds.length + 1) hi hidx).2 ++
            tabLoop (ds.reverse ++ (d :: hi)) (List.replicate ds.length 0 ++ (0 :: (incTerm (ds.length + 1) hi hidx).1)) more ∧
          Open' env ((k + 1) :: ds) xs t ∧ Breaks t := by
      intro k
      induction k with
      | zero =>
        intro j xs cells hj hc hl
        obtain ⟨t, e, ho, hb⟩ := ih h0.2 (d :: hi) (j :: hidx) cells xs more hc (by omega)
        have hi1 : incTerm ds.length (d :: hi) (j :: hidx) = (0 :: (incTerm (ds.length + 1) hi hidx).1, (incTerm (ds.length + 1) hi hidx).2) := by
          rw [incTerm, if_pos (by omega)]
        rw [hi1] at e
        refine ⟨t, e, ?_, hb⟩
        have := Open'.block 0 ds [] [] xs t (.nil ds) ho (fun h => absurd rfl h)
        simpa using this
      | succ k ihk =>
        intro j xs cells hj hc hl
        have hsplit : List.Forall₂ (fun x t => Blk env true [] 0 [x] t ∧ Breaks t) (xs.take (size ds)) (cells.take (size ds)) ∧
            List.Forall₂ (fun x t => Blk env true [] 0 [x] t ∧ Breaks t) (xs.drop (size ds)) (cells.drop (size ds)) :=
          ⟨List.forall₂_take _ hc, List.forall₂_drop _ hc⟩
        have hlx : (xs.take (size ds)).length = size ds := by
          rw [List.length_take, Nat.min_eq_left]; rw [hl, Nat.add_mul]; omega
        have hlr : (xs.drop (size ds)).length = (k + 1) * size ds := by
          rw [List.length_drop, hl, Nat.add_mul (k + 1), Nat.one_mul, Nat.add_sub_cancel]
        obtain ⟨t2, e2, ho2, hb2⟩ := ihk (j + 1) (xs.drop (size ds)) (cells.drop (size ds)) (by omega) hsplit.2 hlr
        obtain ⟨t1, e1, ho1, hb1⟩ := ih h0.2 (d :: hi) (j :: hidx) (cells.take (size ds)) (xs.take (size ds)) (cells.drop (size ds) ++ more) hsplit.1 hlx
        have hi1 : incTerm ds.length (d :: hi) (j :: hidx) = ((j + 1) :: hidx, (ds.length : Int)) := by
          rw [incTerm, if_neg (by omega)]
        rw [hi1] at e1
        simp only at e1
        rw [termText_nat, e2, ← List.append_assoc (cells.take _), List.take_append_drop] at e1
        have hblk := open_close ho1 '\n' (by decide)
        refine ⟨t1 ++ List.replicate ds.length '\n' ++ t2, by rw [e1]; simp only [List.append_assoc], ?_, ?_⟩
        · have := open_cons hblk ho2 (fun _ => hb2)
          rwa [List.take_append_drop] at this
        · exact breaks_append (breaks_append hb1 (open_dims ho1).2.2.1) (by intro e; exact (open_dims ho1).2.2.1 (List.append_eq_nil_iff.1 e).1)
    obtain ⟨k, rfl⟩ : ∃ k, d = k + 1 := ⟨d - 1, by omega⟩
    obtain ⟨t, e, ho, hb⟩ := loop k 0 xs cells (by omega) hc (by rw [hl, size])
    refine ⟨t, ?_, ho, hb⟩
    have e1 : ((k + 1) :: ds : List Nat).reverse ++ hi = ds.reverse ++ (k + 1) :: hi := by simp
    have e2 : ∀ l : List Nat, List.replicate ((k + 1) :: ds).length 0 ++ l = List.replicate ds.length 0 ++ 0 :: l := by
      intro l
      rw [List.length_cons, List.replicate_succ', List.append_assoc]; rfl
    rw [e2, e2]
    simpa using e

theorem run_open {env : TextEnv V O} {n : Nat} {xs : List (UItem V O)} {t : List Char} (h : Blk env false [] (n + 1) xs t) : Open' env [n + 1] xs t := by
  cases h with
  | snoc _ n xs t ys u h1 h2 h3 =>
    have hl := (blk_dims h2).1
    simp only [if_true, size] at hl
    obtain ⟨x, rfl⟩ := List.length_eq_one_iff.1 hl
    exact .block n [] xs t [x] u h1 (.item x u h2) h3

theorem foldl_max_ge_mem (l : List Nat) (a : Nat) : a ≤ l.foldl max a ∧ ∀ x ∈ l, x ≤ l.foldl max a := by
  induction l generalizing a with
  | nil => exact ⟨Nat.le_refl _, fun _ h => by cases h⟩
  | cons b l ih =>
    rw [List.foldl_cons]
    have := ih (max a b)
    refine ⟨Nat.le_trans (Nat.le_max_left _ _) this.1, fun x hx => ?_⟩
    rcases List.mem_cons.1 hx with rfl | hx
    · exact Nat.le_trans (Nat.le_max_right _ _) this.1
    · exact this.2 x hx

theorem cell_index (rows cols i : Nat) (hr : 0 < rows) (hc : 0 < cols) :
    i / (rows * cols) * (rows * cols) + (i % (rows * cols) / cols) * cols + i % cols = i ∧ i % (rows * cols) / cols < rows := by
  constructor
  · have h1 : i % cols = i % (rows * cols) % cols := (Nat.mod_mod_of_dvd i (Nat.dvd_mul_left cols rows)).symm
    rw [h1, Nat.add_assoc, Nat.div_add_mod' (i % (rows * cols)) cols, Nat.div_add_mod']
  · rw [Nat.div_lt_iff_lt_mul hc]
    exact Nat.mod_lt _ (Nat.mul_pos hr hc)

theorem colWidth_gt (rows cols : Nat) (hr : 0 < rows) (hc : 0 < cols) (ss : List (List Char)) (i : Nat) : (ss[i]?.getD []).length < colWidth rows cols ss i := by
  obtain ⟨h1, h2⟩ := cell_index rows cols i hr hc
  have := (foldl_max_ge_mem ((List.range rows).map (fun r => (ss[i / (rows * cols) * (rows * cols) + r * cols + i % cols]?.getD []).length)) 0).2
    (ss[i]?.getD []).length (List.mem_map.2 ⟨_, List.mem_range.2 h2, by rw [h1]⟩)
  rw [colWidth]
  omega

theorem skip_blanks (env : TextEnv V O) (ok : env.Ok) (m : Nat) (x : UItem V O) (w : List Char) (h : Blk env true [] 0 [x] w) :
    Blk env true [] 0 [x] (List.replicate m ' ' ++ w) := by
  induction m with
  | zero => exact h
  | succ m ih =>
    rw [List.replicate_succ, List.cons_append]
    exact .skip ' ' [] [x] _ (by decide) (by simp [skipped, ok.blank]) ih

theorem cellText_blk (env : TextEnv V O) (ok : env.Ok) (rows cols : Nat) (hr : 0 < rows) (hc : 0 < cols) (ss : List (List Char)) (i : Nat) (w : List Char) (hw : ss[i]? = some w)
    (x : UItem V O) (h : Reads' env w x) : Blk env true [] 0 [x] (cellText rows cols ss i) ∧ Breaks (cellText rows cols ss i) := by
  have hgt := colWidth_gt rows cols hr hc ss i
  rw [hw] at hgt
  simp only [Option.getD_some] at hgt
  rw [cellText, hw]
  simp only [Option.getD_some]
  refine ⟨skip_blanks env ok _ x w (.item w x h), ?_⟩
  obtain ⟨m, hm⟩ : ∃ m, colWidth rows cols ss i - w.length = m + 1 := ⟨colWidth rows cols ss i - w.length - 1, by omega⟩
  rw [hm, List.replicate_succ, List.cons_append]
  exact skip_breaks env ok ' ' _ (by simp [skipped, ok.blank])

theorem mem_reverse_get (ds : List Nat) (i : Nat) (h0 : 0 ∉ ds) (hi : i < ds.length) : 0 < ds.reverse[i]?.getD 0 := by
  rw [List.getElem?_eq_getElem (by simpa using hi), Option.getD_some]
  have : ds.reverse[i]'(by simpa using hi) ∈ ds := List.mem_reverse.1 (List.getElem_mem _)
  rcases Nat.eq_zero_or_pos (ds.reverse[i]'(by simpa using hi)) with h | h
  · rw [h] at this; exact absurd this h0
  · exact h

theorem tabText_open (env : TextEnv V O) (ok : env.Ok) (f : UItem V O → List Char) (ds : List Nat) (hd : ds ≠ []) (h0 : 0 ∉ ds)
    (xs : List (UItem V O)) (hx : ∀ x ∈ xs, Reads' env (f x) x) (hl : xs.length = size ds) : Open' env ds xs (tabText ds (xs.map f)) := by
  cases ds with
  | nil => exact absurd rfl hd
  | cons d ds =>
    cases ds with
    | nil =>
      have := run_join env ok ' ' (by decide) (by simp [skipped, ok.blank]) [] _ _ (items_forall2 env f xs (fun x hx' => .item _ _ (hx x hx')))
      simp only [List.mem_cons, List.not_mem_nil, or_false] at h0
      simp only [size, Nat.mul_one] at hl
      rw [flatten_singles, List.length_map, hl] at this
      obtain ⟨k, rfl⟩ : ∃ k, d = k + 1 := ⟨d - 1, by omega⟩
      exact run_open this
    | cons e es =>
      have hr := mem_reverse_get (d :: e :: es) 1 h0 (by simp)
      have hc := mem_reverse_get (d :: e :: es) 0 h0 (by simp)
      rw [tabText]
      · generalize (d :: e :: es).reverse[1]?.getD 0 = rows at *
        generalize (d :: e :: es).reverse[0]?.getD 0 = cols at *
        have hf : List.Forall₂ (fun x t => Blk env true [] 0 [x] t ∧ Breaks t) xs ((List.range (xs.map f).length).map (cellText rows cols (xs.map f))) := by
          rw [List.forall₂_iff_get]
          refine ⟨by simp, fun i h1 h2 => ?_⟩
          simp only [List.get_eq_getElem, List.getElem_map, List.getElem_range]
          exact cellText_blk env ok rows cols hr hc (xs.map f) i (f xs[i]) (by simp [h1]) xs[i] (hx _ (List.getElem_mem _))
        obtain ⟨t, e1, ho, _⟩ := tabLoop_open env (d :: e :: es) h0 [] [] _ xs [] hf hl
        have hz : (d :: e :: es).map (fun _ => 0) = List.replicate (d :: e :: es).length 0 := by simp [List.replicate_succ]
        rw [hz]
        rw [List.append_nil, List.append_nil, List.append_nil] at e1
        rw [e1]
        have : t ++ termText (incTerm (d :: e :: es).length [] []).2 ++ tabLoop (d :: e :: es).reverse (List.replicate (d :: e :: es).length 0 ++ (incTerm (d :: e :: es).length [] []).1) [] = t ++ ['\n'] := by
          rw [incTerm.eq_def]
          simp [termText, tabLoop]
        rw [this, dropNewline, if_pos (by simp), List.dropLast_concat]
        exact ho
      · intro h; cases h
      · intro n h; cases h

end Iv

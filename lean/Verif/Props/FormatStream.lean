import Verif.Lemmas.FormatStream
import Verif.Props.Format
/-
C73: `<⍤k C` reads arrays of rank k from the strings of a channel.
-/
namespace Iv
variable {V O : Type}

theorem runeText_cons (s : List Char) (ss : List (List Char)) (h : s ≠ []) : runeText (s :: ss) = s ++ ss.flatMap (fun w => '\n' :: w) := if_neg h

/-- Every string of the channel is the text of an array in the notation of PP ¯2, of any rank but at least `k`: the values sent are the
`k`-cells of the arrays, all of them and in order, and then the result ends without an error. -/
theorem C73_json (env : TextEnv V O) (ok : env.Ok) (k : Nat) (arrays : List (List Nat × List (UItem V O)))
    (h : ∀ a ∈ arrays, Proper a.1 a.2 ∧ (∀ x ∈ a.2, Readable env (-2) x) ∧ k ≤ a.1.length) :
    ∃ texts, arrays.mapM (fun a => arrayText env (-2) a.1 a.2) = .ok texts ∧
      parseChannel env k texts = (arrays.flatMap (fun a => kCells k a.1 a.2), none) := by
  have hall : ∀ (arrays : List (List Nat × List (UItem V O))), (∀ a ∈ arrays, Proper a.1 a.2 ∧ (∀ x ∈ a.2, Readable env (-2) x) ∧ k ≤ a.1.length) →
      ∃ texts, arrays.mapM (fun a => arrayText env (-2) a.1 a.2) = .ok texts ∧
        List.Forall₂ (fun a t => Blk env true a.1 0 a.2 t) arrays texts := by
    intro arrays
    induction arrays with
    | nil => intro _; exact ⟨[], rfl, .nil⟩
    | cons a as ih =>
      intro h
      obtain ⟨ts, e, hf⟩ := ih (fun b hb => h b (List.mem_cons_of_mem _ hb))
      obtain ⟨⟨h1, h2, h3⟩, hx, _⟩ := h a List.mem_cons_self
      obtain ⟨text, e1, hb⟩ := jsonText_blk env ok (itemText env (-2)) a.1 h1 h2 a.2 (fun x h => readable_reads env ok (-2) (by decide) x (hx x h)) (by omega)
      rw [← h3, List.take_length] at hb
      have e2 : arrayText env (-2) a.1 a.2 = .ok text := by rw [arrayText, if_pos rfl, e1]
      exact ⟨text :: ts, by rw [List.mapM_cons, e2, e]; rfl, .cons hb hf⟩
  obtain ⟨texts, e, hf⟩ := hall arrays h
  refine ⟨texts, e, ?_⟩
  have hmore : ∀ (arrays : List (List Nat × List (UItem V O))) (texts : List (List Char)), List.Forall₂ (fun a t => Blk env true a.1 0 a.2 t) arrays texts →
      (∀ a ∈ arrays, a.1 ≠ [] ∧ k ≤ a.1.length) →
      streamAll env k (texts.flatMap (fun w => '\n' :: w)) = (arrays.flatMap (fun a => kCells k a.1 a.2), none) := by
    intro arrays texts hf
    induction hf with
    | nil => intro _; exact streamAll_end env k
    | cons hb _ ih =>
      intro h
      rw [List.flatMap_cons, List.cons_append, streamAll_close env k '\n' _ (by decide), stream_blk ok k hb (h _ List.mem_cons_self).2 _ (fun e => absurd e (h _ List.mem_cons_self).1),
        ih (fun b hb => h b (List.mem_cons_of_mem _ hb))]
      rfl
  have hk : ∀ a ∈ arrays, a.1 ≠ [] ∧ k ≤ a.1.length := fun a ha => ⟨(h a ha).1.1, (h a ha).2.2⟩
  rw [parseChannel, ← streamAll]
  cases hf with
  | nil => exact streamAll_end env k
  | cons hb hf =>
    rw [runeText_cons _ _ ((blk_dims hb).2.1 rfl).2.1, stream_blk ok k hb (hk _ List.mem_cons_self).2 _ (fun e => absurd e (hk _ List.mem_cons_self).1),
      hmore _ _ hf (fun b hb => hk b (List.mem_cons_of_mem _ hb))]
    rfl

/-- the elements of a vector as words of a line, separated by single blanks -/
def lineText (env : TextEnv V O) (xs : List (UItem V O)) : List Char := joinText [' '] (xs.map (itemText env (-1)))

theorem lineText_run (env : TextEnv V O) (ok : env.Ok) (xs : List (UItem V O)) (hx : ∀ x ∈ xs, Readable env (-1) x) :
    Blk env false [] xs.length xs (lineText env xs) := by
  have := run_join env ok ' ' (by decide) (by simp [skipped, ok.blank]) [] _ _
    (items_forall2 env (itemText env (-1)) xs (fun x h => .item _ _ (readable_reads env ok (-1) (by decide) x (hx x h))))
  rw [flatten_singles, List.length_map] at this
  exact this

/-- one line at the end of the text -/
theorem last_line (env : TextEnv V O) (ok : env.Ok) (xs : List (UItem V O)) (hne : xs ≠ []) (t : List Char) (h : Blk env false [] xs.length xs t) :
    streamAll env 1 t = ([.array [xs.length] xs], none) := by
  have hl := List.length_pos_iff.2 hne
  have h1 := scanAll_first ok (rank := 1) h (.inr (by omega)) (.inr (by decide)) [] (fun _ _ h => by cases h) 0
  rw [List.append_nil, scanAll_nil, finishRank_cell xs _ xs.length [] (by simp) hne (by simp [size]) 1 (by simp)] at h1
  rw [streamAll_value env 1 t [] (.array [xs.length] xs) h1 (fun e => by cases e), streamAll_end]
  rfl

/-- The strings of the channel are lines of words: `<⍤1 C` sends a vector for every line. -/
theorem C73_lines (env : TextEnv V O) (ok : env.Ok) (vectors : List (List (UItem V O))) (h : ∀ xs ∈ vectors, xs ≠ [] ∧ ∀ x ∈ xs, Readable env (-1) x) :
    parseChannel env 1 (vectors.map (lineText env)) = (vectors.map (fun xs => .array [xs.length] xs), none) := by
  have hclose : ∀ xs : List (UItem V O), xs ≠ [] → (∀ x ∈ xs, Readable env (-1) x) → ∀ rest,
      streamAll env 1 (lineText env xs ++ '\n' :: rest) = prepend [.array [xs.length] xs] (streamAll env 1 rest) := by
    intro xs hne hx rest
    have hl := List.length_pos_iff.2 hne
    have hb := Blk.block xs.length [] xs _ '\n' hl (lineText_run env ok xs hx) (by decide)
    have := stream_blk ok 1 hb (by simp) rest (fun e => by cases e)
    rw [List.append_assoc, List.singleton_append] at this
    rw [show streamAll env 1 (lineText env xs ++ '\n' :: rest) = streamAll env (1 : Nat) (lineText env xs ++ '\n' :: rest) from rfl, this]
    have : kCells 1 [xs.length] xs = [.array [xs.length] xs] := by
      rw [kCells, if_neg (by decide)]
      simp [size, Nat.div_self hl]
    rw [this]; rfl
  have hrec : ∀ (ys : List (UItem V O)) (vs : List (List (UItem V O))), (∀ xs ∈ ys :: vs, xs ≠ [] ∧ ∀ x ∈ xs, Readable env (-1) x) →
      streamAll env 1 (lineText env ys ++ (vs.map (lineText env)).flatMap (fun w => '\n' :: w)) = ((ys :: vs).map (fun xs => .array [xs.length] xs), none) := by
    intro ys vs
    induction vs generalizing ys with
    | nil =>
      intro h
      have := h ys List.mem_cons_self
      rw [List.map_nil, List.flatMap_nil, List.append_nil, last_line env ok ys this.1 _ (lineText_run env ok ys this.2)]
      rfl
    | cons z vs ih =>
      intro h
      have := h ys List.mem_cons_self
      rw [List.map_cons, List.flatMap_cons, List.cons_append, hclose ys this.1 this.2, ih z (fun b hb => h b (List.mem_cons_of_mem _ hb))]
      rfl
  rw [parseChannel, ← streamAll]
  cases vectors with
  | nil => exact streamAll_end env 1
  | cons ys vs =>
    have := h ys List.mem_cons_self
    rw [List.map_cons, runeText_cons _ _ (run_ne (lineText_run env ok ys this.2) (by have := List.length_pos_iff.2 this.1; omega))]
    exact hrec ys vs h

theorem join_lines (s : List Char) (g ss : List (List Char)) :
    s ++ (g ++ ss).flatMap (fun w => '\n' :: w) ++ ['\n'] = (s :: g).flatMap (fun w => w ++ ['\n']) ++ (ss.flatMap (fun w => w ++ ['\n'])) := by
  have h : ∀ l : List (List Char), l.flatMap (fun w => '\n' :: w) ++ ['\n'] = '\n' :: l.flatMap (fun w => w ++ ['\n']) := by
    intro l
    induction l with
    | nil => rfl
    | cons a l ih => simp [List.flatMap_cons, ih]
  rw [List.append_assoc, h]
  simp [List.flatMap_cons]

/-- the rows of a matrix, each ended by a newline -/
theorem rows_run (env : TextEnv V O) (ok : env.Ok) (n : Nat) (rows : List (List (UItem V O))) (hn : 0 < n)
    (h : ∀ xs ∈ rows, xs.length = n ∧ ∀ x ∈ xs, Readable env (-1) x) :
    Blk env false [n] rows.length rows.flatten ((rows.map (lineText env)).flatMap (fun w => w ++ ['\n'])) := by
  induction rows using List.reverseRecOn with
  | nil => exact .nil _
  | append_singleton rows xs ih =>
    have hx := h xs (by simp)
    have hb := Blk.block n [] xs _ '\n' hn (by rw [← hx.1]; exact lineText_run env ok xs hx.2) (by decide)
    have := Blk.snoc [n] rows.length _ _ xs _ (ih (fun y hy => h y (by simp [hy]))) hb (fun _ e => by cases e)
    simpa using this

/-- A group of lines with equally many words, at the end of the text: one matrix. -/
theorem last_rows (env : TextEnv V O) (ok : env.Ok) (n : Nat) (rows : List (List (UItem V O))) (xs : List (UItem V O)) (hn : 0 < n)
    (h : ∀ ys ∈ rows ++ [xs], ys.length = n ∧ ∀ x ∈ ys, Readable env (-1) x) :
    streamAll env 2 ((rows.map (lineText env)).flatMap (fun w => w ++ ['\n']) ++ lineText env xs) =
      ([.array [rows.length + 1, n] (rows.flatten ++ xs)], none) := by
  have hx := h xs (by simp)
  have hrun := lineText_run env ok xs hx.2
  have hne : xs ≠ [] := by rintro rfl; simp at hx; omega
  suffices hs : scanAll env 2 ((rows.map (lineText env)).flatMap (fun w => w ++ ['\n']) ++ lineText env xs) ⟨[], 0, []⟩ =
      .ok (.array [rows.length + 1, n] (rows.flatten ++ xs), []) by
    rw [streamAll_value env 2 _ [] _ hs (fun e => by cases e), streamAll_end]
    rfl
  have h0 : 0 ∉ [n] := by simp; omega
  by_cases hr : rows = []
  · subst hr
    have h1 := scanAll_first ok (rank := 2) hrun (.inr (by omega)) (.inr (by decide)) [] (fun _ _ h => by cases h) 0
    rw [List.append_nil, scanAll_nil] at h1
    rw [List.map_nil, List.flatMap_nil, List.nil_append, h1, List.flatten_nil, List.nil_append, finishRank, if_neg hne]
    have hp : ¬ xs.length = 0 := by omega
    simp only [withRest, fillShape, hx.1, List.length_nil]
    simp [fillShape, prod]
    rw [Nat.div_self hn]
    simp only [show n ≠ 0 by omega, if_false, Nat.one_mul, if_true]
    rfl
  · have hl := List.length_pos_iff.2 hr
    have hrr := rows_run env ok n rows hn (fun y hy => h y (by simp [hy]))
    have h1 := scanAll_first ok (rank := 2) hrr (.inr (by omega)) (.inr (by simp)) (lineText env xs) (fun e => by cases e) 0
    have h2 := scanAll_more ok (rank := 2) hrun (.inr (by decide)) [] (fun _ _ h => by cases h) rows.flatten [n].length [n] (by simp)
    rw [List.append_nil, scanAll_nil] at h2
    rw [h1, h2, finishRank_cell _ _ (rows.length + 1) [n] h0 (by simp [hne]) ?_ 2 (by simp)]
    · rfl
    · rw [List.length_append, (blk_dims hrr).1, hx.1]
      simp [size, Nat.add_mul]

/-- The rows of matrices as lines, the matrices separated by an empty string. -/
def groupLines (env : TextEnv V O) : List (List (List (UItem V O))) → List (List Char)
  | [] => []
  | [g] => g.map (lineText env)
  | g :: g' :: gs => g.map (lineText env) ++ [] :: groupLines env (g' :: gs)

/-- A matrix given by its rows. -/
def IsRows (n : Nat) (rows : List (List (UItem V O))) : Prop := 0 < n ∧ rows ≠ [] ∧ ∀ xs ∈ rows, xs.length = n

/-- The strings of the channel are lines of words, with empty strings between groups of lines that have equally many words: `<⍤2 C` sends a
matrix for every group. -/
theorem C73_matrices (env : TextEnv V O) (ok : env.Ok) (groups : List (List (List (UItem V O)))) (width : List (List (UItem V O)) → Nat)
    (h : ∀ g ∈ groups, IsRows (width g) g ∧ ∀ xs ∈ g, ∀ x ∈ xs, Readable env (-1) x) :
    parseChannel env 2 (groupLines env groups) = (groups.map (fun g => .array [g.length, width g] g.flatten), none) := by
  have hne : ∀ g ∈ groups, ∀ xs ∈ g, lineText env xs ≠ [] := by
    intro g hg xs hxs
    have := (h g hg).1
    exact run_ne (lineText_run env ok xs ((h g hg).2 xs hxs)) (by rw [this.2.2 xs hxs]; have := this.1; omega)
  have hrec : ∀ (gs : List (List (List (UItem V O)))) (s : List Char) (ss : List (List Char)),
      (∀ g ∈ gs, IsRows (width g) g ∧ ∀ xs ∈ g, ∀ x ∈ xs, Readable env (-1) x) → groupLines env gs = s :: ss →
      streamAll env 2 (s ++ ss.flatMap (fun w => '\n' :: w)) = (gs.map (fun g => .array [g.length, width g] g.flatten), none) := by
    intro gs
    induction gs with
    | nil => intro s ss _ e; cases e
    | cons g gs ih =>
      intro s ss h e
      obtain ⟨⟨hn, hg, hw⟩, hr⟩ := h g List.mem_cons_self
      obtain ⟨y, ys, rfl⟩ := List.exists_cons_of_ne_nil hg
      cases gs with
      | nil =>
        rw [groupLines] at e
        cases e
        obtain ⟨rows, xs, e2⟩ : ∃ rows xs, y :: ys = rows ++ [xs] := ⟨(y :: ys).dropLast, (y :: ys).getLast hg, (List.dropLast_append_getLast hg).symm⟩
        have h1 := last_rows env ok (width (y :: ys)) rows xs hn (by rw [← e2]; exact fun z hz => ⟨hw z hz, hr z hz⟩)
        have e3 : lineText env y ++ (ys.map (lineText env)).flatMap (fun w => '\n' :: w) =
            (rows.map (lineText env)).flatMap (fun w => w ++ ['\n']) ++ lineText env xs := by
          have h4 := join_lines (lineText env y) (ys.map (lineText env)) []
          rw [List.append_nil, List.flatMap_nil, List.append_nil, ← List.map_cons, e2, List.map_append, List.flatMap_append] at h4
          simp only [List.map_cons, List.map_nil, List.flatMap_cons, List.flatMap_nil, List.append_nil, ← List.append_assoc] at h4
          exact List.append_cancel_right h4
        have e5 : (y :: ys).length = rows.length + 1 := by rw [e2]; simp
        have e6 : (y :: ys).flatten = rows.flatten ++ xs := by rw [e2]; simp
        rw [List.map_cons, List.map_nil, e5, e6, e3]
        exact h1
      | cons g' gs =>
        rw [groupLines] at e
        cases e
        obtain ⟨s', ss', e'⟩ : ∃ s' ss', groupLines env (g' :: gs) = s' :: ss' := by
          obtain ⟨⟨_, hg', _⟩, _⟩ := h g' (by simp)
          obtain ⟨z, zs, rfl⟩ := List.exists_cons_of_ne_nil hg'
          cases gs <;> exact ⟨_, _, rfl⟩
        have ih' := ih s' ss' (fun b hb => h b (List.mem_cons_of_mem _ hb)) e'
        have hb := Blk.block (y :: ys).length [width (y :: ys)] _ _ '\n' (by simp) (rows_run env ok _ (y :: ys) hn (fun z hz => ⟨hw z hz, hr z hz⟩)) (by decide)
        have hst := stream_blk ok 2 hb (by simp) (s' ++ ss'.flatMap (fun w => '\n' :: w)) (fun e => by cases e)
        have hflat : (y :: ys).flatten.length = (y :: ys).length * width (y :: ys) := by
          have := (blk_dims hb).1
          simpa [size] using this
        have hcell : kCells 2 [(y :: ys).length, width (y :: ys)] (y :: ys).flatten = [.array [(y :: ys).length, width (y :: ys)] (y :: ys).flatten] := by
          rw [kCells, if_neg (by decide)]
          simp only [List.length_cons, List.length_nil, Nat.zero_add, Nat.reduceAdd, Nat.sub_self, List.drop_zero, size, Nat.mul_one]
          rw [hflat, List.length_cons, Nat.div_self (Nat.mul_pos (Nat.succ_pos _) hn)]
          simp only [List.range_one, List.map_cons, List.map_nil, Nat.zero_mul, List.drop_zero]
          rw [← List.length_cons (a := y), ← hflat, List.take_length]
        rw [hcell] at hst
        have etext : lineText env y ++ (ys.map (lineText env) ++ [] :: groupLines env (g' :: gs)).flatMap (fun w => '\n' :: w) =
            ((y :: ys).map (lineText env)).flatMap (fun w => w ++ ['\n']) ++ ['\n'] ++ (s' ++ ss'.flatMap (fun w => '\n' :: w)) := by
          have := join_lines (lineText env y) (ys.map (lineText env)) []
          rw [List.append_nil, List.flatMap_nil, List.append_nil, ← List.map_cons] at this
          rw [← this, e']
          simp [List.flatMap_append, List.flatMap_cons]
        refine (congrArg (streamAll env 2) etext).trans ?_
        rw [show streamAll env (2 : Int) _ = streamAll env ((2 : Nat) : Int) _ from rfl, hst,
          show streamAll env ((2 : Nat) : Int) (s' ++ ss'.flatMap (fun w => '\n' :: w)) = streamAll env (2 : Int) _ from rfl, ih']
        rfl
  rw [parseChannel, ← streamAll]
  cases groups with
  | nil => exact streamAll_end env 2
  | cons g gs =>
    obtain ⟨⟨hn, hg, hw⟩, hr⟩ := h g List.mem_cons_self
    obtain ⟨y, ys, rfl⟩ := List.exists_cons_of_ne_nil hg
    obtain ⟨ss, e⟩ : ∃ ss, groupLines env ((y :: ys) :: gs) = lineText env y :: ss := by
      cases gs <;> exact ⟨_, rfl⟩
    rw [e, runeText_cons _ _ (hne _ List.mem_cons_self y List.mem_cons_self)]
    exact hrec _ _ _ h e

/-- If the first string of the channel is empty, nothing is read: the result ends at once. -/
theorem C73_first_empty (env : TextEnv V O) (rank : Int) (ss : List (List Char)) : parseChannel env rank ([] :: ss) = ([], none) := by
  rw [parseChannel, runeText, if_pos rfl]
  exact streamAll_end env rank

/-- Whatever the strings are, the loop ends, without a panic, and every array that is sent has as many elements as its shape says. -/
theorem C73_total (env : TextEnv V O) (rank : Int) (ss : List (List Char)) :
    (parseChannel env rank ss).2 ≠ some .panic ∧ ∀ x ∈ (parseChannel env rank ss).1, Rectangular x := by
  rw [parseChannel]
  generalize runeText ss = cs
  have key : ∀ (n : Nat) (cs : List Char), cs.length < n → (scanStream env rank n cs).2 ≠ some .panic ∧ ∀ x ∈ (scanStream env rank n cs).1, Rectangular x := by
    intro n
    induction n with
    | zero => intro cs h; omega
    | succ n ih =>
      intro cs hl
      rw [scanStream]
      rcases C70_total env rank cs with h | ⟨x, rest, h, hx⟩
      · rw [h]
        exact ⟨fun e => (by cases e), fun x hx => (by cases hx)⟩
      · rw [h]
        cases x with
        | eof => exact ⟨fun e => (by cases e), fun x hx => (by cases hx)⟩
        | one x =>
          have hr := scanRank_rest env rank cs _ rest h (fun e => by cases e)
          have := ih rest (by omega)
          exact ⟨this.1, fun y hy => (List.mem_cons.1 hy).elim (fun e => e ▸ hx) (this.2 y)⟩
        | array sh vs =>
          have hr := scanRank_rest env rank cs _ rest h (fun e => by cases e)
          have := ih rest (by omega)
          exact ⟨this.1, fun y hy => (List.mem_cons.1 hy).elim (fun e => e ▸ hx) (this.2 y)⟩
  exact key _ cs (by omega)

/- A concrete environment: ASCII classes and no further number types. -/
namespace TextDemo

def env : TextEnv Unit Unit where
  print c := decide (32 ≤ c.toNat ∧ c.toNat < 127)
  space c := c == ' ' || c == '\n' || c == '\t'
  numText _ _ _ := []
  numParse _ _ := none
  classes := 0
  otherText _ _ _ := []

theorem env_ok : env.Ok where
  newline := by decide
  blank := by decide
  quote := by decide
  number := by
    intro c h
    cases hc : env.space c with
    | false => rfl
    | true =>
      exfalso
      rw [← numChar_iff] at h
      simp only [env, Bool.or_eq_true, beq_iff_eq] at hc
      rcases hc with (rfl | rfl) | rfl <;> revert h <;> decide

/-- the text of a string with a quote, a number and a boolean -/
def items : List (UItem Unit Unit) := [.num (.int 1), .str "a\"b", .num (.int (-3)), .num (.bool true), .str "", .num (.int 40)]

example : ∀ x ∈ items, Readable env (-1) x ∧ Readable env (-2) x := by
  intro x hx
  simp only [items, List.mem_cons, List.not_mem_nil, or_false] at hx
  rcases hx with rfl | rfl | rfl | rfl | rfl | rfl <;> simp [Readable, I64]
example : Proper [2, 3] items := ⟨by decide, by decide, rfl⟩
example : (arrayText env (-2) [2, 3] items).toOption = some "[[1,\"a\\\"b\",¯3],[1b,\"\",40]]".toList := by decide +kernel
example : (arrayText env (-1) [2, 3] items).toOption = some "  1 \"a\\\"b\" ¯3\n 1b     \"\" 40".toList := by decide +kernel
example : (arrayText env (-3) [2, 3] items).toOption = some "[1,\"a\\\"b\",¯3;1b,\"\",40]".toList := by decide +kernel
/-- the leading axis of length one is lost in the table -/
example : dropOnes [1, 1, 2] = [2] := by decide

/-- the shapes and lengths of what is sent -/
def shapes (p : List (Scanned Unit Unit) × Option Fail) : List (List Nat × Nat) :=
  p.1.map (fun x => match x with | .eof => ([], 0) | .one _ => ([], 1) | .array sh vs => (sh, vs.length))

example : shapes (parseChannel env 1 ["[[1,2],[3,4]]".toList, "[5,6]".toList]) = [([2], 2), ([2], 2), ([2], 2)] := by decide +kernel
example : shapes (parseChannel env 2 ["1 2".toList, "3 4".toList, [], "5 6 7".toList]) = [([2, 2], 4), ([1, 3], 3)] := by decide +kernel
/-- Of rank 3 only closed data is read as described: the last cell of lines lacks an axis here (shape 1 2 instead of 1 1 2). -/
example : shapes (parseChannel env 3 ["1 2".toList]) = [([1, 2], 2)] := by decide +kernel

end TextDemo

end Iv

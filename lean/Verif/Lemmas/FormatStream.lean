import Verif.Lemmas.FormatText
/-
Lemmas about reading arrays of one rank from a stream (`sendParseSubArray`).
-/
namespace Iv
variable {V O : Type}

theorem withRest_ok {rest rest' : List Char} {r : Res (Scanned V O)} {x : Scanned V O} (h : withRest rest r = .ok (x, rest')) : rest' = rest := by
  rw [withRest] at h
  cases r with
  | error e => cases h
  | ok y => cases h; rfl

theorem rankLoop_rest (env : TextEnv V O) (rank : Int) (n : Nat) (cs : List Char) (st : RankSt V O) (x : Scanned V O) (rest : List Char)
    (h : rankLoop env rank n cs st = .ok (x, rest)) : rest.length ≤ cs.length ∧ (cs ≠ [] → rest.length < cs.length) := by
  induction n generalizing cs st with
  | zero =>
    cases cs with
    | nil => rw [rankLoop] at h; rw [withRest_ok h]; exact ⟨Nat.le_refl _, fun e => absurd rfl e⟩
    | cons r cs => simp [rankLoop] at h
  | succ n ih =>
    cases cs with
    | nil => rw [rankLoop] at h; rw [withRest_ok h]; exact ⟨Nat.le_refl _, fun e => absurd rfl e⟩
    | cons r cs =>
      suffices hs : rest.length < (r :: cs).length from ⟨Nat.le_of_lt hs, fun _ => hs⟩
      have step : ∀ cs' st', cs'.length < (r :: cs).length → rankLoop env rank n cs' st' = .ok (x, rest) → rest.length < (r :: cs).length := by
        intro cs' st' hl h'
        have := (ih cs' st' h').1
        omega
      have hl : cs.length < (r :: cs).length := by simp
      rw [rankLoop] at h
      split at h
      · split at h
        · exact step _ _ hl h
        split at h
        · rw [withRest_ok h]; exact hl
        split at h
        · split at h
          · exact step _ _ hl h
          · cases h
        · exact step _ _ hl h
      split at h
      · exact step _ _ hl h
      split at h
      · split at h
        · cases h
        · rename_i src rest' e
          have := readDouble_length _ _ _ _ e
          split at h
          · cases h
          split at h
          · cases h; simp only [List.length_cons]; omega
          · exact step _ _ (by simp only [List.length_cons]; omega) h
      split at h
      · cases h
      · rename_i hne
        have := scanNumber_length _ hne
        split at h
        · cases h
        split at h
        · cases h; exact this
        · exact step _ _ this h

theorem scanRank_rest (env : TextEnv V O) (rank : Int) (cs : List Char) (x : Scanned V O) (rest : List Char) (h : scanRank env rank cs = .ok (x, rest))
    (hx : x ≠ .eof) : rest.length < cs.length := by
  refine (rankLoop_rest env rank _ cs _ x rest h).2 ?_
  rintro rfl
  rw [scanRank, rankLoop, finishRank, if_pos rfl] at h
  cases h
  exact hx rfl

theorem scanStream_fuel (env : TextEnv V O) (rank : Int) (n m : Nat) (cs : List Char) (hn : cs.length < n) (hm : cs.length < m) :
    scanStream env rank n cs = scanStream env rank m cs := by
  induction n generalizing m cs with
  | zero => omega
  | succ n ih =>
    obtain ⟨m, rfl⟩ : ∃ k, m = k + 1 := ⟨m - 1, by omega⟩
    rw [scanStream, scanStream]
    cases hs : scanRank env rank cs with
    | error e => rfl
    | ok p =>
      obtain ⟨x, rest⟩ := p
      cases x with
      | eof => rfl
      | one x =>
        have := scanRank_rest env rank cs _ rest hs (fun e => by cases e)
        simp only
        rw [ih m rest (by omega) (by omega)]
      | array sh vs =>
        have := scanRank_rest env rank cs _ rest hs (fun e => by cases e)
        simp only
        rw [ih m rest (by omega) (by omega)]

/-- the stream with enough rounds -/
def streamAll (env : TextEnv V O) (rank : Int) (cs : List Char) : List (Scanned V O) × Option Fail := scanStream env rank (cs.length + 1) cs

/-- values in front of a stream -/
def prepend (xs : List (Scanned V O)) (p : List (Scanned V O) × Option Fail) : List (Scanned V O) × Option Fail := (xs ++ p.1, p.2)

theorem prepend_append (xs ys : List (Scanned V O)) (p : List (Scanned V O) × Option Fail) : prepend (xs ++ ys) p = prepend xs (prepend ys p) := by
  simp [prepend]

theorem streamAll_end (env : TextEnv V O) (rank : Int) : streamAll env rank ([] : List Char) = ([], none) := by
  rw [streamAll, scanStream, scanRank, rankLoop, finishRank, if_pos rfl]
  rfl

theorem streamAll_value (env : TextEnv V O) (rank : Int) (cs rest : List Char) (x : Scanned V O) (h : scanAll env rank cs ⟨[], 0, []⟩ = .ok (x, rest)) (hx : x ≠ .eof) :
    streamAll env rank cs = prepend [x] (streamAll env rank rest) := by
  have hs : scanRank env rank cs = .ok (x, rest) := h
  have := scanRank_rest env rank cs x rest hs hx
  rw [streamAll, scanStream, hs]
  cases x with
  | eof => exact absurd rfl hx
  | one x => simp only; rw [streamAll, scanStream_fuel env rank _ (rest.length + 1) rest this (by omega)]; rfl
  | array sh vs => simp only; rw [streamAll, scanStream_fuel env rank _ (rest.length + 1) rest this (by omega)]; rfl

theorem streamAll_same (env : TextEnv V O) (rank : Int) (cs rest : List Char) (h : scanAll env rank cs ⟨[], 0, []⟩ = scanAll env rank rest ⟨[], 0, []⟩) :
    streamAll env rank cs = streamAll env rank rest := by
  have hs : scanRank env rank cs = scanRank env rank rest := h
  cases hr : scanRank env rank rest with
  | error e => rw [streamAll, scanStream, streamAll, scanStream, hs, hr]
  | ok p =>
    obtain ⟨x, r⟩ := p
    by_cases hx : x = .eof
    · subst hx
      rw [streamAll, scanStream, streamAll, scanStream, hs, hr]
    · rw [streamAll_value env rank cs r x (hs.trans hr) hx, streamAll_value env rank rest r x hr hx]

theorem streamAll_close (env : TextEnv V O) (rank : Int) (c : Char) (cs : List Char) (hc : closesAxis c = true) : streamAll env rank (c :: cs) = streamAll env rank cs :=
  streamAll_same env rank _ _ (by rw [scanAll_close env rank c cs _ hc, if_pos rfl])

theorem streamAll_skip (env : TextEnv V O) (rank : Int) (c : Char) (cs : List Char) (hc : closesAxis c = false) (hs : skipped env c = true) :
    streamAll env rank (c :: cs) = streamAll env rank cs :=
  streamAll_same env rank _ _ (scanAll_skip env rank c cs _ hc hs)

/-- The `k`-cells of an array (shape and elements) in order: the cells have the last `k` axes; cells of rank 0 are the elements. -/
def kCells (k : Nat) (ds : List Nat) (xs : List (UItem V O)) : List (Scanned V O) :=
  if k = 0 then xs.map .one
  else (List.range (xs.length / size (ds.drop (ds.length - k)))).map
    (fun i => .array (ds.drop (ds.length - k)) ((xs.drop (i * size (ds.drop (ds.length - k)))).take (size (ds.drop (ds.length - k)))))

theorem kCells_append (k : Nat) (ds : List Nat) (hp : 0 < size (ds.drop (ds.length - k))) (m : Nat) (xs ys : List (UItem V O))
    (h : k ≠ 0 → xs.length = m * size (ds.drop (ds.length - k))) :
    kCells k ds (xs ++ ys) = kCells k ds xs ++ kCells k ds ys := by
  rw [kCells, kCells, kCells]
  split
  · exact List.map_append
  · rename_i hk
    replace h := h hk
    generalize hc : ds.drop (ds.length - k) = cs at *
    generalize hs : size cs = p at *
    have e1 : xs.length / p = m := by rw [h]; exact Nat.mul_div_cancel _ hp
    have e2 : (xs ++ ys).length / p = m + ys.length / p := by
      rw [List.length_append, h, Nat.add_comm, Nat.add_mul_div_right _ _ hp, Nat.add_comm]
    rw [e1, e2, List.range_add, List.map_append, List.map_map]
    congr 1
    · refine List.map_congr_left (fun i hi => ?_)
      have hi' := List.mem_range.1 hi
      have : i * p + p ≤ xs.length := by
        rw [h, ← Nat.succ_mul]
        exact Nat.mul_le_mul_right _ hi'
      rw [List.drop_append, List.take_append]
      have e3 : p - (List.drop (i * p) xs).length = 0 := by rw [List.length_drop]; omega
      rw [e3, List.take_zero, List.append_nil]
    · refine List.map_congr_left (fun i _ => ?_)
      simp only [Function.comp]
      rw [Nat.add_mul, ← h, List.drop_append, List.drop_eq_nil_of_le (by omega), List.nil_append, Nat.add_sub_cancel_left]

theorem finishRank_cell (xs : List (UItem V O)) (c d : Nat) (ds : List Nat) (h0 : 0 ∉ ds) (hne : xs ≠ []) (hl : xs.length = d * size ds) (rank : Int)
    (hr : rank = ds.length + 1) : finishRank rank (⟨xs, c, ds⟩ : RankSt V O) = .ok (.array (d :: ds) xs) := by
  have hp := size_pos_of h0
  rw [finishRank, if_neg hne]
  simp only
  rw [if_neg (by omega), fillShape, if_pos (by omega), if_neg, if_neg, fillShape.eq_def]
  · have e1 : xs.length / (if ds = [] then 1 else prod ds) = d := by
      by_cases hn : ds = []
      · subst hn; rw [if_pos rfl, Nat.div_one, hl]; simp [size]
      · rw [if_neg hn, prod_eq_size hn, hl, Nat.mul_div_cancel _ hp]
    rw [e1]
    obtain ⟨f, hf⟩ : ∃ f, rank.toNat + 1 = f + 1 := ⟨_, rfl⟩
    rw [hf]
    simp only
    rw [if_neg (by simp only [List.length_cons]; omega)]
    rfl
  · rw [not_not, prod_eq_size (List.cons_ne_nil _ _), size]
    by_cases hn : ds = []
    · subst hn; rw [if_pos rfl, Nat.div_one]; simp [size]
    · rw [if_neg hn, prod_eq_size hn, hl, Nat.mul_div_cancel _ hp]
  · rintro ⟨h2, h3⟩
    rw [prod_eq_size h2] at h3
    omega

theorem size_suffix {ds : List Nat} (h : 0 ∉ ds) (k : Nat) : 0 < size (ds.drop k) := size_pos_of (fun e => h (List.mem_of_mem_drop e))

theorem size_split (ds : List Nat) (k : Nat) : size ds = size (ds.take k) * size (ds.drop k) := by
  conv => lhs; rw [← List.take_append_drop k ds]
  exact size_append _ _

/-- a text in which every axis is closed gives its cells -/
theorem stream_blk {env : TextEnv V O} (ok : env.Ok) (k : Nat) {b : Bool} {ds : List Nat} {n : Nat} {xs : List (UItem V O)} {t : List Char} (h : Blk env b ds n xs t) :
    ∀ (_ : k ≤ ds.length) (rest : List Char) (_ : ds = [] → Breaks rest),
    streamAll env k (t ++ rest) = prepend (kCells k ds xs) (streamAll env k rest) := by
  induction h with
  | item w x h =>
    intro hk rest hb
    have hk : k = 0 := by simpa using hk
    subst hk
    exact streamAll_value env 0 _ rest (.one x) (by rw [scanAll_item env ok 0 w x h rest (hb rfl), if_pos rfl]) (fun e => by cases e)
  | skip ch ds xs t h1 h2 _ ih =>
    intro hk rest hb
    rw [List.cons_append, streamAll_skip env k ch _ h1 h2, ih hk rest hb]
  | block d ds xs t ch hd hrun hc ih =>
    intro hk rest _
    have hdim := blk_dims hrun
    have hne := hdim.2.2 rfl (by omega)
    have hlen : xs.length = d * size ds := hdim.1
    rw [List.append_assoc, List.singleton_append]
    by_cases hk' : k ≤ ds.length
    · rw [ih hk' _ (fun _ => breaks_close ch hc rest), streamAll_close env k ch rest hc]
      have e : (d :: ds).drop ((d :: ds).length - k) = ds.drop (ds.length - k) := by
        rw [List.length_cons, Nat.succ_sub hk', List.drop_succ_cons]
      rw [kCells, kCells, e]
    · have hk1 : k = ds.length + 1 := by simp only [List.length_cons] at hk; omega
      have hcell : kCells k (d :: ds) xs = [.array (d :: ds) xs] := by
        rw [kCells, if_neg (by omega), hk1]
        simp only [List.length_cons, Nat.sub_self, List.drop_zero, size]
        have : 0 < d * size ds := Nat.mul_pos hd (size_pos_of hne.2)
        rw [hlen, Nat.div_self this]
        simp [← hlen]
      rw [hcell]
      refine streamAll_value env k _ rest _ ?_ (fun e => by cases e)
      rw [scanAll_first ok hrun (.inr (by omega)) (.inr (by omega)) _ (fun _ => breaks_close ch hc rest) 0, scanAll_close env k ch rest _ hc, if_neg hne.1,
        if_pos (by simp only; omega)]
      simp only
      rw [finishRank_cell xs _ d ds hne.2 hne.1 hlen k (by omega)]
      rfl
  | nil ds =>
    intro _ rest _
    rw [List.nil_append, kCells]
    simp [prepend]
  | snoc ds n xs t ys u hrun hu hbr ih1 ih2 =>
    intro hk rest hb
    have hd := blk_dims hu
    have hlen : xs.length = n * size ds := (blk_dims hrun).1
    rw [List.append_assoc]
    by_cases hn : n = 0
    · subst hn
      cases hrun
      rw [List.nil_append, List.nil_append, ih2 hk rest hb]
    · rw [ih1 hk _ (fun e => breaks_append (hbr hn e) (hd.2.1 rfl).2.1), ih2 hk rest hb,
        kCells_append k ds (size_suffix (hd.2.1 rfl).2.2 _) (n * size (ds.take (ds.length - k))) xs ys
          (fun _ => by rw [hlen, size_split ds (ds.length - k), Nat.mul_assoc]), prepend_append]

end Iv

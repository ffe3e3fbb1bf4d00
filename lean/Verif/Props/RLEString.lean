import Verif.Proofs.RunSpec
/-! # C21, C22: RLEString (rle_string.hpp) -/
namespace Sri
set_option autoImplicit false

/-- C21. Built from any non-empty sequence and any block size `b ≥ 1`, `RLEString` has the sequence's size and
    answers `operator[]` at every position, `rank(i,c)` for every `i ≤ size` and every symbol not larger than the
    largest one, and `select(k,c)` for every `k` up to the number of `c`, as the plain sequence does.
    (A symbol above the largest one indexes `runs_per_symbol_` out of range, see `c21_rank_outside`.) -/
theorem c21_rleString_sequence (xs : List Nat) (b : Nat) (hx : xs ≠ []) (hb : 1 ≤ b) :
    ∃ S, RLEString.build xs b = some S ∧ S.size = xs.length ∧
      (∀ i (h : i < xs.length), S.access i = some xs[i]) ∧
      (∀ i c, i ≤ xs.length → (∃ d ∈ xs, c ≤ d) → S.rank i c = some ((xs.take i).count c)) ∧
      (∀ k c, 1 ≤ k → k ≤ xs.count c →
        ∃ p, S.select k c = some p ∧ xs[p]? = some c ∧ (xs.take p).count c = k - 1) := by
  obtain ⟨S, h1, -, h3, h4⟩ := build_rep hx hb
  have he := expand_rle xs
  refine ⟨S, h1, ?_, ?_, ?_, ?_⟩
  · rw [h3.size_eq, he]
  · intro i h
    have := h3.access (i := i) (by rw [he]; exact h)
    rw [this]; simp [he]
  · intro i c hi hc
    have := h3.rank (i := i) (c := c) (by rw [he]; exact hi) ((h4 c).2 hc)
    rwa [he] at this
  · intro k c hk hkc
    obtain ⟨k, rfl⟩ : ∃ k', k = k' + 1 := ⟨k - 1, by omega⟩
    have hm : c ∈ xs := List.count_pos_iff.1 (by omega)
    have := h3.select (c := c) (k := k) ((h4 c).2 ⟨c, hm, Nat.le_refl _⟩) (by rw [he]; omega)
    rwa [he] at this

example : ([2,2,0,1,1,1,2] : List Nat) ≠ [] ∧ 1 ≤ 2 ∧
    ((RLEString.build [2,2,0,1,1,1,2] 2).bind (·.rank 5 1)) = some 2 ∧
    ((RLEString.build [2,2,0,1,1,1,2] 2).bind (·.select 3 2)) = some 6 := by decide

/-- C21, the excluded point: the per-symbol table is indexed without a bound check. -/
theorem c21_rank_outside (xs : List Nat) (b i c : Nat) (S : RLEString) (h : RLEString.build xs b = some S)
    (hc : ∀ d ∈ xs, d < c) : S.rank i c = none := by
  have hx : xs ≠ [] := by rintro rfl; simp [RLEString.build] at h
  have hb : 1 ≤ b := by
    by_contra hb
    have : b = 0 := by omega
    subst this
    cases xs with
    | nil => exact hx rfl
    | cons => simp [RLEString.build] at h
  obtain ⟨S', h1, -, -, h4⟩ := build_rep hx hb
  rw [h] at h1; obtain rfl := Option.some_inj.1 h1
  have : S.perSym[c]? = none := by
    rw [List.getElem?_eq_none_iff]
    by_contra hlt
    obtain ⟨d, hd, hcd⟩ := (h4 c).1 (by omega)
    have := hc d hd; omega
  unfold RLEString.rank
  simp only [assertC]
  split <;> simp [this]

example : ((RLEString.build [2,2,0,1] 2).bind (·.rank 1 3)) = none := by decide

/-- C22, positions. For every position `i` the run information of `RLEString` describes the maximal run holding `i`:
    its rank is the number of runs before it, its bounds and symbol are those of the run, and the symbol-run rank is
    the number of runs of that symbol before it. -/
theorem c22_run_of_position (xs : List Nat) (b : Nat) (S : RLEString) (h : RLEString.build xs b = some S)
    (i : Nat) (hi : i < xs.length) :
    ∃ a e c, a ≤ i ∧ i < e ∧ IsRun xs a e c ∧
      S.rankSoftRun i = some { rnk := runsBefore xs a, c := c, start := a, stop := e } ∧
      runsBefore xs (i+1) = runsBefore xs a + 1 ∧
      S.rankAt i = some ((xs.take i).count c, c, runsBefore xs a, a, e, symbolRunsBefore xs c a) := by
  have hx : xs ≠ [] := by rintro rfl; simp at hi
  have hb : 1 ≤ b := by
    by_contra hb
    have : b = 0 := by omega
    subst this
    cases xs with
    | nil => exact hx rfl
    | cons => simp [RLEString.build] at h
  obtain ⟨S', h1, -, h3, h4⟩ := build_rep hx hb
  rw [h] at h1; obtain rfl := Option.some_inj.1 h1
  have he := expand_rle xs
  have hp := rle_pos xs
  have ha := rle_alternating xs
  obtain ⟨m, hm, k1, k2⟩ := rstart_find (rle xs) (i := i) (by rw [← length_expand, he]; exact hi)
  have e1 := expand_isRun hp ha hm
  have e2 := runsBefore_rstart hp ha (Nat.le_of_lt hm)
  have e3 := runsBefore_succ hp ha hm k1 k2
  have e4 := h3.rankAt hm k1 k2
  have e5 := symRunsBefore_rstart hp ha ((rle xs)[m]).1 (Nat.le_of_lt hm)
  rw [he] at e1 e2 e3 e4 e5
  refine ⟨_, _, _, k1, k2, e1, ?_, by rw [e2, e3], ?_⟩
  · rw [h3.rankSoftRun hm k1 k2, e2]; rfl
  · rw [e4, e2, e5]

example : ∃ S, RLEString.build [2,2,0,1,1,1,2] 2 = some S ∧
    S.rankAt 4 = some (1, 1, 2, 3, 6, 0) := ⟨_, rfl, by decide⟩

/-- C22, `rank` with run report: besides the rank it reports the number of `c`-runs starting at or before position
    `i`, and whether `i` lies in a `c`-run. -/
theorem c22_rank_report (xs : List Nat) (b : Nat) (S : RLEString) (h : RLEString.build xs b = some S)
    (i c : Nat) (hi : i ≤ xs.length) (hc : ∃ d ∈ xs, c ≤ d) :
    S.rankReport i c = some ((xs.take i).count c, symbolRunsBefore xs c (min (i + 1) xs.length),
      decide (xs[i]? = some c)) := by
  have hx : xs ≠ [] := by rintro rfl; obtain ⟨d, hd, _⟩ := hc; simp at hd
  have hb : 1 ≤ b := by
    by_contra hb
    have : b = 0 := by omega
    subst this
    cases xs with
    | nil => exact hx rfl
    | cons => simp [RLEString.build] at h
  obtain ⟨S', h1, -, h3, h4⟩ := build_rep hx hb
  rw [h] at h1; obtain rfl := Option.some_inj.1 h1
  have he := expand_rle xs
  have hp := rle_pos xs
  have ha := rle_alternating xs
  rcases Nat.lt_or_eq_of_le hi with hlt | heq
  · obtain ⟨m, hm, k1, k2⟩ := rstart_find (rle xs) (i := i) (by rw [← length_expand, he]; exact hlt)
    have e1 := h3.rankReport ((h4 c).2 hc) hm k1 k2
    have e2 := symRunsBefore_succ hp ha c hm k1 k2
    have e3 := getElem_expand hm k1 k2
    rw [he] at e1 e2 e3
    rw [e1, Nat.min_eq_left (by omega), e2, e3, Rep.crank_succ c hm]
    congr 3
    · by_cases hcc : ((rle xs)[m]).1 = c <;> simp [hcc]
    · simp
  · have e1 := h3.rankReport_end ((h4 c).2 hc)
    have e2 := symRunsBefore_rstart hp ha c (Nat.le_refl _)
    rw [← length_expand, he] at e2
    rw [he] at e1
    rw [heq, e1, Nat.min_eq_right (by omega), e2, List.take_length]
    simp

example : ∃ S, RLEString.build [2,2,0,1,1,1,2] 2 = some S ∧ S.rankReport 6 2 = some (2, 2, true) ∧
    S.rankReport 5 2 = some (2, 1, false) := ⟨_, rfl, by decide⟩

/-- C22, `selectOnRuns(k,c)`: the rank of the `k`-th run of the symbol `c`. -/
theorem c22_select_on_runs (xs : List Nat) (b : Nat) (S : RLEString) (h : RLEString.build xs b = some S)
    (k c : Nat) (hk : 1 ≤ k) (hkc : k ≤ symbolRunsBefore xs c xs.length) :
    ∃ a e, IsRun xs a e c ∧ symbolRunsBefore xs c a = k - 1 ∧ S.selectOnRuns k c = some (runsBefore xs a) := by
  have hx : xs ≠ [] := by rintro rfl; simp [symbolRunsBefore] at hkc; omega
  have hb : 1 ≤ b := by
    by_contra hb
    have : b = 0 := by omega
    subst this
    cases xs with
    | nil => exact hx rfl
    | cons => simp [RLEString.build] at h
  obtain ⟨S', h1, -, h3, h4⟩ := build_rep hx hb
  rw [h] at h1; obtain rfl := Option.some_inj.1 h1
  have he := expand_rle xs
  have hp := rle_pos xs
  have ha := rle_alternating xs
  obtain ⟨k, rfl⟩ : ∃ k', k = k' + 1 := ⟨k - 1, by omega⟩
  have e2 := symRunsBefore_rstart hp ha c (Nat.le_refl _)
  rw [← length_expand, he] at e2
  have hm : c ∈ xs := by
    have : 0 < symbolRunsBefore xs c xs.length := by omega
    rw [symbolRunsBefore] at this
    obtain ⟨j, hj⟩ := List.exists_mem_of_length_pos this
    simp only [List.mem_filter, Bool.and_eq_true, beq_iff_eq] at hj
    exact List.mem_of_getElem? hj.2.2
  obtain ⟨q, hq, s1, s2, s3⟩ := h3.selectOnRuns (c := c) (k := k) ((h4 c).2 ⟨c, hm, Nat.le_refl _⟩) (by omega)
  have e1 := expand_isRun hp ha hq
  have e3 := runsBefore_rstart hp ha (Nat.le_of_lt hq)
  have e5 := symRunsBefore_rstart hp ha c (Nat.le_of_lt hq)
  rw [he] at e1 e3 e5
  rw [s2] at e1
  exact ⟨_, _, e1, by rw [e5, s3]; omega, by rw [e3, s1]⟩

example : symbolRunsBefore [2,2,0,1,1,1,2] 2 7 = 2 ∧
    ((RLEString.build [2,2,0,1,1,1,2] 2).bind (·.selectOnRuns 2 2)) = some 3 := by decide

/-- C22, `splitInRuns(first,last)`: the reported runs are maximal runs of the sequence with their run ranks, in order
    and without gaps; the first one holds `first`, the last one ends at or after `last`, and (for a non-empty range)
    every one of them meets the range. -/
theorem c22_split_in_runs (xs : List Nat) (b : Nat) (S : RLEString) (h : RLEString.build xs b = some S)
    (first last : Nat) (h1 : first ≤ last) (h2 : last ≤ xs.length) (h3 : first < xs.length) :
    ∃ L, S.splitInRuns first last = some L ∧
      (∀ r ∈ L, IsRun xs r.start r.stop r.c ∧ r.rnk = runsBefore xs r.start) ∧
      (∀ k (hk : k + 1 < L.length), L[k].stop = L[k+1].start) ∧
      (∃ r, L.head? = some r ∧ r.start ≤ first ∧ first < r.stop) ∧
      (∃ r, L.getLast? = some r ∧ last ≤ r.stop) ∧
      (first < last → ∀ r ∈ L, r.start < last ∧ first < r.stop) := by
  have hx : xs ≠ [] := by rintro rfl; simp at h3
  have hb : 1 ≤ b := by
    by_contra hb
    have : b = 0 := by omega
    subst this
    cases xs with
    | nil => exact hx rfl
    | cons => simp [RLEString.build] at h
  obtain ⟨S', h0, -, hR, h4⟩ := build_rep hx hb
  rw [h] at h0; obtain rfl := Option.some_inj.1 h0
  have he := expand_rle xs
  have hp := rle_pos xs
  have ha := rle_alternating xs
  obtain ⟨m, hm, k1, k2⟩ := rstart_find (rle xs) (i := first) (by rw [← length_expand, he]; exact h3)
  obtain ⟨e, a1, a2, a3, a4, a5⟩ := hR.splitLoop (last := last) (by rw [← length_expand, he]; exact h2)
    (S.r + 1) m hm (by rw [hR.r]; omega)
  have hget : ∀ j (_ : m ≤ j) (hje : j ≤ e), (if hj : j < (rle xs).length then Rep.grun (rle xs) j hj else ⟨0,0,0,0⟩)
      = Rep.grun (rle xs) j (Nat.lt_of_le_of_lt hje a2) := by
    intro j _ hje; rw [dif_pos (Nat.lt_of_le_of_lt hje a2)]
  refine ⟨(List.range' m (e + 1 - m)).map
    (fun j => if hj : j < (rle xs).length then Rep.grun (rle xs) j hj else ⟨0,0,0,0⟩), ?_, ?_, ?_, ?_, ?_, ?_⟩
  · unfold RLEString.splitInRuns
    have hsz : S.size = xs.length := by rw [hR.size_eq, he]
    simp only [hsz, assertC, h1, h2, and_self, decide_true, if_true, Option.bind_eq_bind, Option.bind_some,
      hR.rankSoftRun hm k1 k2]
    exact a5
  · intro r hr
    rw [List.mem_map] at hr
    obtain ⟨j, hj, rfl⟩ := hr
    rw [List.mem_range'_1] at hj
    rw [hget j hj.1 (by omega)]
    have e1 := expand_isRun hp ha (show j < (rle xs).length by omega)
    have e2 := runsBefore_rstart hp ha (show j ≤ (rle xs).length by omega)
    rw [he] at e1 e2
    exact ⟨e1, e2.symm⟩
  · intro k hk
    simp only [List.length_map, List.length_range'] at hk
    simp only [List.getElem_map, List.getElem_range']
    rw [hget _ (by omega) (by omega), hget _ (by omega) (by omega)]
    simp only [Rep.grun]
    congr 1
  · rw [show e + 1 - m = (e - m) + 1 by omega, List.range'_succ]
    refine ⟨_, rfl, ?_⟩
    dsimp only
    rw [hget m (by omega) a1]
    exact ⟨k1, k2⟩
  · rw [show e + 1 - m = (e - m) + 1 by omega, List.range'_1_concat, List.map_append, List.map_singleton,
      List.getLast?_concat]
    refine ⟨_, rfl, ?_⟩
    rw [hget _ (by omega) (by omega)]
    simp only [Rep.grun]
    rw [show m + (e - m) = e by omega]; exact a3
  · intro hlt r hr
    rw [List.mem_map] at hr
    obtain ⟨j, hj, rfl⟩ := hr
    rw [List.mem_range'_1] at hj
    rw [hget j hj.1 (by omega)]
    simp only [Rep.grun]
    constructor
    · rcases Nat.lt_or_eq_of_le hj.1 with hmj | rfl
      · have := a4 (by omega)
        have := rstart_mono (rle xs) (show j ≤ e by omega); omega
      · omega
    · have := rstart_mono (rle xs) (show m + 1 ≤ j + 1 by omega); omega

example : ((RLEString.build [2,2,0,1,1,1,2] 2).bind (·.splitInRuns 1 4)) =
    some [⟨0,2,0,2⟩, ⟨1,0,2,3⟩, ⟨2,1,3,6⟩] := by decide

end Sri

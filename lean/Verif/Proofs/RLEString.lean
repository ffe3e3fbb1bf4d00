import Verif.Model.RLEString
import Verif.Proofs.Rle
/-! # Refinement of RLEString to the plain sequence -/
namespace Sri
set_option autoImplicit false

/-- blocks of `runs_`: run lengths with the block-end bit (never set for the last run) -/
def blk (b : Nat) : Nat → List (Nat × Nat) → List (Nat × Bool)
  | _, [] => []
  | _, [q] => [(q.2, false)]
  | r, q :: q' :: R => (q.2, r % b == b - 1) :: blk b (r + 1) (q' :: R)

theorem blk_fst (b r : Nat) (R : List (Nat × Nat)) : (blk b r R).map (·.1) = R.map (·.2) := by
  induction R generalizing r with
  | nil => rfl
  | cons q R ih => cases R with
    | nil => rfl
    | cons q' R => simp only [blk, List.map_cons] at ih ⊢; rw [ih]

theorem blk_length (b r : Nat) (R : List (Nat × Nat)) : (blk b r R).length = R.length := by
  have := congrArg List.length (blk_fst b r R); simpa using this

theorem blk_ustart (b r : Nat) (R : List (Nat × Nat)) (k : Nat) : ustart (blk b r R) k = rstart R k := by
  rw [ustart, rstart, List.map_take, List.map_take, blk_fst]

theorem blk_bit {b r : Nat} {R : List (Nat × Nat)} {m : Nat} (h : m + 1 < R.length) :
    ((blk b r R)[m]'(by rw [blk_length]; omega)).2 = ((r + m) % b == b - 1) := by
  induction R generalizing r m with
  | nil => simp at h
  | cons q R ih => cases R with
    | nil => simp at h
    | cons q' R =>
      cases m with
      | zero => simp [blk]
      | succ m =>
        simp only [blk, List.getElem_cons_succ]
        rw [ih (by simpa using h)]
        congr 2; omega

theorem blk_count {b : Nat} (hb : 0 < b) {R : List (Nat × Nat)} {m : Nat} (h : m < R.length) :
    ((blk b 0 R).take m).countP (·.2) = m / b := by
  induction m with
  | zero => simp
  | succ m ih =>
    have hl : m < (blk b 0 R).length := by rw [blk_length]; omega
    rw [← List.take_append_getElem hl, List.countP_append, ih (by omega)]
    simp only [List.countP_singleton, blk_bit (b := b) (r := 0) (R := R) (m := m) h, Nat.zero_add, Nat.succ_div]
    have hlt := Nat.mod_lt m hb
    have e := Nat.div_add_mod m b
    congr 1
    by_cases hh : m % b = b - 1
    · have hd : b ∣ m + 1 := ⟨m / b + 1, by rw [Nat.mul_add]; omega⟩
      simp [hh, hd]
    · have hd : ¬ b ∣ m + 1 := by
        rintro ⟨k, hk⟩
        have h1 : (m + 1) % b = 0 := by rw [hk]; simp
        have h2 : (m+1) % b = m % b + 1 := by
          rw [Nat.add_mod]
          rcases Nat.lt_or_ge 1 b with h | h
          · rw [Nat.mod_eq_of_lt h, Nat.mod_eq_of_lt (show m % b + 1 < b by omega)]
          · omega
        omega
      simp [hh, hd]

/-- `S` stores the sequence with runs `R` -/
structure Rep (S : RLEString) (R : List (Nat × Nat)) : Prop where
  pos : ∀ q ∈ R, 0 < q.2
  r : S.r = R.length
  b : 0 < S.b
  heads : S.runHeads = R.map (·.1)
  runs : S.runs = un (blk S.b 0 R)
  sym : ∀ c, c < S.perSym.length →
    S.perSym[c]? = some (un ((R.filter (fun q => q.1 == c)).map (fun q => (q.2, true))))
  dom : ∀ q ∈ R, q.1 < S.perSym.length
  ne : R ≠ []

theorem emit_spec (b sym r : Nat) (xs : List Nat) :
    (RLEString.emit b sym r xs).heads = (rle (sym :: xs)).map (·.1) ∧
    (RLEString.emit b sym r xs).r = r + (rle (sym :: xs)).length ∧
    (RLEString.emit b sym r xs).runs = un (blk b r (rle (sym :: xs))) ∧
    (RLEString.emit b sym r xs).per = (rle (sym :: xs)).flatMap
      (fun q => List.replicate (q.2 - 1) (q.1, false) ++ [(q.1, true)]) := by
  induction xs generalizing sym r with
  | nil => simp [RLEString.emit, rle, un, blk]
  | cons y ys ih =>
    rw [RLEString.emit]
    by_cases h : sym = y
    · subst h
      simp only [ne_eq, not_true_eq_false, if_false]
      obtain ⟨h1, h2, h3, h4⟩ := ih sym r
      obtain ⟨l, R, hR⟩ := rle_cons sym ys
      rw [rle_eq_same sym ys hR]
      rw [hR] at h1 h2 h3 h4
      refine ⟨by rw [h1]; simp, by rw [h2]; simp, ?_, ?_⟩
      · rw [h3]
        cases R <;> simp [blk, un, List.replicate_succ]
      · rw [h4]; simp [List.replicate_succ]
    · simp only [ne_eq, h, not_false_eq_true, if_true]
      obtain ⟨h1, h2, h3, h4⟩ := ih y (r+1)
      rw [rle_eq_diff h]
      refine ⟨by rw [h1]; simp, by rw [h2]; simp; omega, ?_, ?_⟩
      · rw [h3]
        obtain ⟨l, R, hR⟩ := rle_cons y ys
        rw [hR]; simp [blk, un]
      · rw [h4]; simp

theorem per_filter (R : List (Nat × Nat)) (c : Nat) :
    ((R.flatMap (fun q => List.replicate (q.2 - 1) (q.1, false) ++ [(q.1, true)])).filter
      (fun q => q.1 == c)).map (·.2) = un ((R.filter (fun q => q.1 == c)).map (fun q => (q.2, true))) := by
  induction R with
  | nil => rfl
  | cons q R ih =>
    simp only [List.flatMap_cons, List.filter_append, List.map_append, ih, List.filter_cons]
    by_cases h : q.1 = c
    · simp [h, un]
    · simp [h]

theorem le_foldl_max (l : List Nat) (a : Nat) : a ≤ l.foldl max a ∧ ∀ x ∈ l, x ≤ l.foldl max a := by
  induction l generalizing a with
  | nil => simp
  | cons y l ih =>
    simp only [List.foldl_cons, List.mem_cons, forall_eq_or_imp]
    obtain ⟨h1, h2⟩ := ih (max a y)
    exact ⟨by omega, by omega, h2⟩

theorem build_rep {xs : List Nat} {b : Nat} (hx : xs ≠ []) (hb : 0 < b) :
    ∃ S, RLEString.build xs b = some S ∧ S.b = b ∧ Rep S (rle xs) ∧
      (∀ c, c < S.perSym.length ↔ ∃ d ∈ xs, c ≤ d) := by
  cases xs with
  | nil => exact absurd rfl hx
  | cons x rest =>
    have hb0 : b ≠ 0 := by omega
    obtain ⟨h1, h2, h3, h4⟩ := emit_spec b x 0 rest
    have hmem : ∀ d, d ∈ ((RLEString.emit b x 0 rest).per.map (·.1)) ↔ d ∈ x :: rest := by
      intro d
      rw [h4]
      conv => rhs; rw [← expand_rle (x :: rest)]
      simp only [List.mem_map, List.mem_flatMap, expand, List.mem_append, List.mem_singleton]
      constructor
      · rintro ⟨q, ⟨p, hp, hq⟩, rfl⟩
        refine ⟨p, hp, ?_⟩
        have := rle_pos _ p hp
        rcases hq with hq | rfl
        · rw [List.mem_replicate] at hq; rw [hq.2]; simp; omega
        · simp; omega
      · rintro ⟨q, hq, hd⟩
        rw [List.mem_replicate] at hd
        exact ⟨(q.1, true), ⟨q, hq, Or.inr rfl⟩, hd.2.symm⟩
    refine ⟨_, by rw [RLEString.build, if_neg hb0], rfl, ?_, ?_⟩
    · refine ⟨rle_pos _, by simpa using h2, hb, h1, h3, ?_, ?_, ?_⟩
      · intro c hc
        simp only [List.length_map, List.length_range] at hc
        rw [List.getElem?_map, List.getElem?_range hc, Option.map_some, h4, per_filter]
      · intro q hq
        simp only [List.length_map, List.length_range]
        have := (le_foldl_max ((RLEString.emit b x 0 rest).per.map (·.1)) 0).2 q.1 (by
          rw [h4]; simp only [List.mem_map, List.mem_flatMap]
          exact ⟨(q.1, true), ⟨q, hq, by simp⟩, rfl⟩)
        omega
      · obtain ⟨l, R, hR⟩ := rle_cons x rest; rw [hR]; simp
    · intro c
      simp only [List.length_map, List.length_range]
      constructor
      · intro hc
        by_contra hcon
        push Not at hcon
        have : ∀ (l : List Nat) (a : Nat), a < c → (∀ x ∈ l, x < c) → l.foldl max a < c := by
          intro l; induction l with
          | nil => intro a h _; simpa using h
          | cons y l ih => intro a h hl; exact ih _ (by have := hl y (by simp); omega) (fun z hz => hl z (by simp [hz]))
        have := this _ 0 (by have := hcon x (by simp); omega) (fun z hz => hcon z ((hmem z).1 hz))
        omega
      · rintro ⟨d, hd, hc⟩
        have := (le_foldl_max ((RLEString.emit b x 0 rest).per.map (·.1)) 0).2 d ((hmem d).2 hd)
        omega

namespace Rep
variable {S : RLEString} {R : List (Nat × Nat)}

theorem blkpos (h : Rep S R) : ∀ q ∈ blk S.b 0 R, 0 < q.1 := by
  intro q hq
  have : q.1 ∈ (blk S.b 0 R).map (·.1) := List.mem_map_of_mem hq
  rw [blk_fst, List.mem_map] at this
  obtain ⟨p, hp, e⟩ := this
  rw [← e]; exact h.pos p hp

theorem size (h : Rep S R) : S.size = rstart R R.length := by
  rw [RLEString.size, h.runs, length_un h.blkpos, blk_length, blk_ustart]

theorem size_eq (h : Rep S R) : S.size = (expand R).length := by rw [h.size, length_expand]

/-- per-symbol blocks -/
def symL (R : List (Nat × Nat)) (c : Nat) : List (Nat × Bool) :=
  (R.filter (fun q => q.1 == c)).map (fun q => (q.2, true))

theorem symL_pos (hp : ∀ q ∈ R, 0 < q.2) (c : Nat) : ∀ q ∈ symL R c, 0 < q.1 := by
  intro q hq
  simp only [symL, List.mem_map, List.mem_filter] at hq
  obtain ⟨p, hp', rfl⟩ := hq
  exact hp p hp'.1

theorem symL_countP (R : List (Nat × Nat)) (c m : Nat) (h : m ≤ (symL R c).length) :
    ((symL R c).take m).countP (·.2) = m := by
  have : ∀ q ∈ (symL R c).take m, q.2 = true := by
    intro q hq
    have := List.mem_of_mem_take hq
    simp only [symL, List.mem_map, List.mem_filter] at this
    obtain ⟨p, hp', rfl⟩ := this
    rfl
  rw [List.countP_eq_length.2 this, List.length_take_of_le h]

/-- number of runs of symbol `c` among the first `k` runs -/
def crank (R : List (Nat × Nat)) (c k : Nat) : Nat := (R.take k).countP (fun q => q.1 == c)

theorem count_heads (R : List (Nat × Nat)) (c k : Nat) :
    ((R.map (·.1)).take k).count c = crank R c k := by
  rw [crank, ← List.map_take, List.count_eq_countP, List.countP_map]; rfl

theorem crank_le (R : List (Nat × Nat)) (c k : Nat) : crank R c k ≤ (symL R c).length := by
  rw [symL, List.length_map, ← List.countP_eq_length_filter, crank]
  exact (List.take_sublist _ _).countP_le

theorem symL_ustart (R : List (Nat × Nat)) (c k : Nat) : ustart (symL R c) (crank R c k) = csum R c k := by
  rw [ustart, csum, symL, ← List.map_take, crank, filter_take, List.map_map]; rfl

theorem symL_length_ustart (R : List (Nat × Nat)) (c : Nat) :
    ustart (symL R c) (symL R c).length = csum R c R.length := by
  rw [ustart, csum, symL, List.take_length, List.take_length, List.map_map]; rfl

theorem symL_bit (c m : Nat) (h : m < (symL R c).length) : ((symL R c)[m]).2 = true := by
  simp [symL]

theorem sym_select (hp : ∀ q ∈ R, 0 < q.2) (c m : Nat) (h : m < (symL R c).length) :
    bvSelect (un (symL R c)) (m + 1) = some (ustart (symL R c) (m + 1) - 1) := by
  have := select_un (symL_pos hp c) h (symL_bit c m h)
  rwa [symL_countP R c m (by omega)] at this

theorem sym_len (hp : ∀ q ∈ R, 0 < q.2) (c : Nat) : (un (symL R c)).length = csum R c R.length := by
  rw [length_un (symL_pos hp c), symL_length_ustart]

theorem ustart_pos {L : List (Nat × Bool)} (hp : ∀ q ∈ L, 0 < q.1) {m : Nat} (h : m < L.length) :
    0 < ustart L (m+1) := by
  rw [ustart_succ h]; have := hp L[m] (List.getElem_mem _); omega

/-- start of the symbol run from `select` -/
theorem sym_start (hp : ∀ q ∈ R, 0 < q.2) (c k : Nat) :
    RLEString.afterSelect (un (symL R c)) (crank R c k)
      = some (csum R c k) := by
  have hle := crank_le R c k
  unfold RLEString.afterSelect
  by_cases h : crank R c k = 0
  · rw [if_pos h, ← symL_ustart, h]; simp [ustart]
  · rw [if_neg h]
    obtain ⟨m, hm⟩ : ∃ m, crank R c k = m + 1 := ⟨crank R c k - 1, by omega⟩
    rw [← symL_ustart, hm, sym_select hp c m (by omega)]
    have := ustart_pos (symL_pos hp c) (m := m) (by omega)
    simp; omega

theorem crank_succ {k : Nat} (c : Nat) (h : k < R.length) :
    crank R c (k+1) = crank R c k + if (R[k]).1 = c then 1 else 0 := by
  rw [crank, ← List.take_append_getElem h, List.countP_append, ← crank, List.countP_singleton]
  by_cases hc : (R[k]).1 = c <;> simp [hc]

theorem symbolRunData (h : Rep S R) {k : Nat} (hk : k < R.length) :
    S.computeSymbolRunData k = some
      { rnk := crank R (R[k]).1 k, c := (R[k]).1, start := csum R (R[k]).1 k,
        stop := csum R (R[k]).1 (k+1) } := by
  have hc := h.dom R[k] (List.getElem_mem _)
  have hs := h.sym _ hc
  unfold RLEString.computeSymbolRunData
  have h1 : assertC (decide (k < S.r)) = some () := by simp [assertC, h.r, hk]
  have h2 : wtInverseSelect S.runHeads k = some (crank R (R[k]).1 k, (R[k]).1) := by
    rw [wtInverseSelect, h.heads]
    simp only [List.getElem?_map, List.getElem?_eq_getElem hk, Option.map_some, count_heads]
  have h3 : (bvSelect (un (symL R (R[k]).1)) (crank R (R[k]).1 k + 1)).map (· + 1) =
      some (csum R (R[k]).1 (k+1)) := by
    have h4 := sym_start h.pos (R[k]).1 (k+1)
    rw [crank_succ _ hk, if_pos rfl, RLEString.afterSelect, if_neg (by omega)] at h4
    exact h4
  have h4 := sym_start h.pos (R[k]).1 k
  rw [h1, h2]
  simp only [Option.bind_eq_bind, Option.bind_some, hs]
  change ((RLEString.afterSelect (un (symL R (R[k]).1)) (crank R (R[k]).1 k)).bind _) = _
  rw [h4, Option.bind_some]
  change (((bvSelect (un (symL R (R[k]).1)) (crank R (R[k]).1 k + 1)).map (· + 1)).bind _) = _
  rw [h3]; rfl

/-- global run data of run `k` -/
def grun (R : List (Nat × Nat)) (k : Nat) (hk : k < R.length) : RLEString.RunData :=
  { rnk := k, c := (R[k]).1, start := rstart R k, stop := rstart R (k+1) }

/-- symbol run data of run `k` -/
def srun (R : List (Nat × Nat)) (k : Nat) (hk : k < R.length) : RLEString.RunData :=
  { rnk := crank R (R[k]).1 k, c := (R[k]).1, start := csum R (R[k]).1 k, stop := csum R (R[k]).1 (k+1) }

theorem bothRunData (h : Rep S R) {k : Nat} (hk : k < R.length) :
    S.computeBothRunData k (rstart R k) = some (grun R k hk, srun R k hk) := by
  have e := csum_succ (R := R) (c := (R[k]).1) hk
  rw [if_pos rfl] at e
  simp only [RLEString.computeBothRunData, h.symbolRunData hk, Option.bind_eq_bind, Option.bind_some]
  rw [csub, if_pos (by omega)]
  simp only [Option.bind_some, grun, srun, rstart_succ hk]
  congr 3
  congr 1; omega

theorem runData (h : Rep S R) {k : Nat} (hk : k < R.length) :
    S.computeRunData k (rstart R k) = some (grun R k hk) := by
  rw [RLEString.computeRunData, h.bothRunData hk]; rfl

theorem runLength (h : Rep S R) {k : Nat} (hk : k < R.length) :
    S.computeRunLength k = some (R[k]).2 := by
  have e := csum_succ (R := R) (c := (R[k]).1) hk
  rw [if_pos rfl] at e
  simp only [RLEString.computeRunLength, h.symbolRunData hk, Option.bind_eq_bind, Option.bind_some]
  rw [csub, if_pos (by omega)]
  congr 1; omega

theorem blockStart (h : Rep S R) {m : Nat} (hm : m < R.length) :
    RLEString.afterSelect S.runs (m / S.b)
      = some (rstart R (m / S.b * S.b)) := by
  unfold RLEString.afterSelect
  by_cases h0 : 0 < m / S.b
  · rw [if_neg (by omega)]
    have hle : m / S.b * S.b ≤ m := Nat.div_mul_le_self _ _
    have hb := h.b
    have hge : S.b ≤ m / S.b * S.b := Nat.le_mul_of_pos_left _ h0
    have hk : m / S.b * S.b - 1 + 1 < R.length := by omega
    have hk' : m / S.b * S.b - 1 < (blk S.b 0 R).length := by rw [blk_length]; omega
    have hdiv : (m / S.b * S.b - 1) / S.b = m / S.b - 1 := by
      have e : m / S.b * S.b - 1 = (S.b - 1) + (m / S.b - 1) * S.b := by
        rw [Nat.sub_mul]; omega
      rw [e, Nat.add_mul_div_right _ _ hb, Nat.div_eq_of_lt (show S.b - 1 < S.b by omega)]; omega
    have hmod : (m / S.b * S.b - 1) % S.b = S.b - 1 := by
      have e : m / S.b * S.b - 1 = (S.b - 1) + (m / S.b - 1) * S.b := by
        rw [Nat.sub_mul]; omega
      rw [e, Nat.add_mul_mod_self_right, Nat.mod_eq_of_lt (by omega)]
    have hbit := blk_bit (b := S.b) (r := 0) (R := R) (m := m / S.b * S.b - 1) hk
    have := select_un h.blkpos hk' (by rw [hbit]; simp [hmod])
    rw [blk_count hb (by omega), hdiv, ← h.runs, blk_ustart,
      show m / S.b - 1 + 1 = m / S.b by omega, show m / S.b * S.b - 1 + 1 = m / S.b * S.b by omega] at this
    rw [this]
    have hpos := rstart_strict h.pos (show 0 < m / S.b * S.b by omega) (by omega)
    simp at hpos ⊢; omega
  · have : m / S.b = 0 := Nat.eq_zero_of_not_pos h0
    rw [this]; simp

theorem advance (h : Rep S R) {i m : Nat} (hm : m < R.length) (h1 : rstart R m ≤ i) (h2 : i < rstart R (m+1)) :
    ∀ (fuel k : Nat) (hk : k ≤ m), m - k < fuel →
      S.advance i fuel (grun R k (by omega), srun R k (by omega)) = some (grun R m hm, srun R m hm) := by
  intro fuel
  induction fuel with
  | zero => intro k _ h; omega
  | succ fuel ih =>
    intro k hk hf
    rw [RLEString.advance]
    rcases Nat.lt_or_eq_of_le hk with hlt | rfl
    · have := rstart_mono R (show k + 1 ≤ m by omega)
      rw [if_pos (by simp only [grun]; omega)]
      simp only [grun]
      rw [h.bothRunData (show k + 1 < R.length by omega)]
      exact ih (k+1) (by omega) (by omega)
    · rw [if_neg (by simp only [grun]; omega)]

theorem rankSoftBothRun (h : Rep S R) {i m : Nat} (hm : m < R.length) (h1 : rstart R m ≤ i)
    (h2 : i < rstart R (m+1)) :
    S.rankSoftBothRun i = some (grun R m hm, srun R m hm) := by
  have hi : i ≤ S.runs.length := by
    have := h.size; rw [RLEString.size] at this
    have := rstart_mono R (show m + 1 ≤ R.length by omega); omega
  have hblock : bvRank S.runs i = some (m / S.b) := by
    rw [bvRank, if_pos hi, h.runs, count_take_un h.blkpos (m := m) (by rw [blk_length]; exact hm)
      (by rw [blk_ustart]; exact h1) (by rw [blk_ustart]; exact h2), blk_count h.b hm]
  have hle : m / S.b * S.b ≤ m := Nat.div_mul_le_self _ _
  unfold RLEString.rankSoftBothRun
  simp only [hblock, Option.bind_eq_bind, Option.bind_some, h.blockStart hm,
    h.bothRunData (show m / S.b * S.b < R.length by omega)]
  rw [h.advance hm h1 h2 (S.r + 1) _ hle (by rw [h.r]; omega)]
  simp [assertC, grun, h1, h2, h.r, hm]

theorem rankSoftRun (h : Rep S R) {i m : Nat} (hm : m < R.length) (h1 : rstart R m ≤ i)
    (h2 : i < rstart R (m+1)) :
    S.rankSoftRun i = some (grun R m hm) := by
  rw [RLEString.rankSoftRun, h.rankSoftBothRun hm h1 h2]; rfl

theorem access (h : Rep S R) {i : Nat} (hi : i < (expand R).length) : S.access i = some ((expand R)[i]) := by
  have hi' : i < rstart R R.length := by rwa [← length_expand]
  obtain ⟨m, hm, h1, h2⟩ := rstart_find R hi'
  have e := getElem_expand hm h1 h2
  rw [List.getElem?_eq_getElem hi, Option.some_inj] at e
  simp only [RLEString.access, h.size_eq, hi, assertC, decide_true, if_true, Option.bind_eq_bind, Option.bind_some,
    h.rankSoftRun hm h1 h2, grun, h.heads, List.getElem?_map, List.getElem?_eq_getElem hm, Option.map_some, e]

theorem rank (h : Rep S R) {i c : Nat} (hi : i ≤ (expand R).length) (hc : c < S.perSym.length) :
    S.rank i c = some (((expand R).take i).count c) := by
  have hs := h.sym c hc
  change _ = some (un (symL R c)) at hs
  unfold RLEString.rank
  rw [h.size_eq, hs]
  simp only [hi, assertC, decide_true, if_true, Option.bind_eq_bind, Option.bind_some, sym_len h.pos]
  by_cases h0 : csum R c R.length = 0
  · rw [if_pos h0]
    have : ((expand R).take i).count c ≤ (expand R).count c := (List.take_sublist _ _).count_le _
    rw [count_expand] at this
    simp; omega
  · rw [if_neg h0]
    by_cases hn : i = (expand R).length
    · rw [if_pos hn, hn, List.take_length, count_expand]; rfl
    · rw [if_neg hn]
      obtain ⟨m, hm, h1, h2⟩ := rstart_find R (i := i) (by rw [← length_expand]; omega)
      have hst := sym_start h.pos c m
      simp only [h.rankSoftRun hm h1 h2, Option.bind_some, grun]
      rw [h.heads, wtRank, if_pos (by simp; omega), count_heads]
      simp only [Option.bind_some, hst]
      rw [count_take_expand c hm h1 (by omega)]
      by_cases hcc : (R[m]).1 = c
      · simp [hcc, csub, h1]
      · simp [hcc]

theorem un_sym_count (_ : ∀ q ∈ R, 0 < q.2) (c : Nat) :
    bvRank (un (symL R c)) (un (symL R c)).length = some (crank R c R.length) := by
  rw [bvRank, if_pos (Nat.le_refl _), List.take_length, count_un]
  have := symL_countP R c _ (Nat.le_refl _)
  rw [List.take_length] at this
  rw [this, symL, List.length_map, ← List.countP_eq_length_filter, crank, List.take_length]

theorem rankReport (h : Rep S R) {i m c : Nat} (hc : c < S.perSym.length) (hm : m < R.length)
    (h1 : rstart R m ≤ i) (h2 : i < rstart R (m+1)) :
    S.rankReport i c = some (((expand R).take i).count c,
      (if (R[m]).1 = c then crank R c (m+1) else crank R c m), decide ((R[m]).1 = c)) := by
  have hs := h.sym c hc
  change _ = some (un (symL R c)) at hs
  have hi : i < (expand R).length := by
    rw [length_expand]; have := rstart_mono R (show m + 1 ≤ R.length by omega); omega
  unfold RLEString.rankReport
  rw [h.size_eq, hs]
  simp only [Nat.le_of_lt hi, assertC, decide_true, if_true, Option.bind_eq_bind, Option.bind_some, sym_len h.pos]
  by_cases h0 : csum R c R.length = 0
  · rw [if_pos h0]
    have : ((expand R).take i).count c ≤ (expand R).count c := (List.take_sublist _ _).count_le _
    rw [count_expand] at this
    have hne : ∀ q ∈ R, q.1 ≠ c := by
      intro q hq hqc
      have : c ∈ expand R := by
        rw [expand, List.mem_flatMap]
        exact ⟨q, hq, by rw [hqc]; have := h.pos q hq; simp; omega⟩
      have := List.count_pos_iff.2 this
      rw [count_expand] at this; omega
    have hcr : crank R c m = 0 := by
      rw [crank, List.countP_eq_zero]
      intro q hq; simpa using hne q (List.mem_of_mem_take hq)
    have := hne R[m] (List.getElem_mem _)
    simp [this, hcr]; omega
  · rw [if_neg h0, if_neg (by omega)]
    have hst := sym_start h.pos c m
    simp only [h.rankSoftBothRun hm h1 h2, Option.bind_some, grun, srun]
    rw [count_take_expand c hm h1 (by omega)]
    by_cases hcc : (R[m]).1 = c
    · rw [crank_succ c hm]
      simp [hcc, csub, h1]
    · have hw : wtRank S.runHeads m c = some (crank R c m) := by
        rw [h.heads, wtRank, if_pos (by simp; omega), count_heads]
      simp [hst, hcc, hw]

theorem rankReport_end (h : Rep S R) {c : Nat} (hc : c < S.perSym.length) :
    S.rankReport (expand R).length c = some ((expand R).count c, crank R c R.length, false) := by
  have hs := h.sym c hc
  change _ = some (un (symL R c)) at hs
  unfold RLEString.rankReport
  rw [h.size_eq, hs]
  simp only [Nat.le_refl, assertC, decide_true, if_true, Option.bind_eq_bind, Option.bind_some, count_expand]
  have hl := sym_len h.pos c
  by_cases h0 : csum R c R.length = 0
  · rw [if_pos (by omega), h0]
    have hle := crank_le R c R.length
    have := symL_length_ustart R c
    have hz : (symL R c).length = 0 := by
      by_contra hne
      have := ustart_pos (symL_pos h.pos c) (m := (symL R c).length - 1) (by omega)
      rw [show (symL R c).length - 1 + 1 = (symL R c).length by omega] at this
      omega
    rw [show crank R c R.length = 0 by omega]; rfl
  · rw [if_neg (by omega), un_sym_count h.pos, hl]; rfl

theorem rankAt (h : Rep S R) {i m : Nat} (hm : m < R.length)
    (h1 : rstart R m ≤ i) (h2 : i < rstart R (m+1)) :
    S.rankAt i = some (((expand R).take i).count (R[m]).1, (R[m]).1, m, rstart R m, rstart R (m+1),
      crank R (R[m]).1 m) := by
  have hi : i < (expand R).length := by
    rw [length_expand]; have := rstart_mono R (show m + 1 ≤ R.length by omega); omega
  unfold RLEString.rankAt
  rw [h.size_eq]
  simp only [hi, assertC, decide_true, if_true, Option.bind_eq_bind, Option.bind_some,
    h.rankSoftBothRun hm h1 h2, grun, srun, csub, h1]
  rw [count_take_expand _ hm h1 (by omega), if_pos rfl]
  rfl

theorem wtSelect_heads (h : Rep S R) {c k : Nat} (hk : k < crank R c R.length) :
    ∃ (q : Nat) (hq : q < R.length), wtSelect S.runHeads (k+1) c = some q ∧ (R[q]).1 = c ∧ crank R c q = k := by
  have : k < S.runHeads.countP (· == c) := by
    have := count_heads R c R.length
    rw [List.take_of_length_le (by simp)] at this
    rw [h.heads, ← List.count_eq_countP, this]; exact hk
  obtain ⟨q, hq⟩ := selectFrom_isSome this
  have h1 : wtSelect S.runHeads (k+1) c = some q := by
    rw [wtSelect, if_neg (by omega), Nat.add_sub_cancel]; exact hq
  have h2 := wtSelect_eq_some.1 h1
  rw [h.heads, count_heads] at h2
  obtain ⟨h3, h4⟩ := h2
  rw [List.getElem?_map] at h3
  have hlt : q < R.length := by
    by_contra hc
    rw [List.getElem?_eq_none (by omega)] at h3; simp at h3
  rw [List.getElem?_eq_getElem hlt] at h3
  exact ⟨q, hlt, h1, by simpa using h3, h4⟩

theorem selectOnRuns (h : Rep S R) {c k : Nat} (hc : c < S.perSym.length) (hk : k < crank R c R.length) :
    ∃ (q : Nat) (hq : q < R.length), S.selectOnRuns (k+1) c = some q ∧ (R[q]).1 = c ∧ crank R c q = k := by
  obtain ⟨q, hq, h1, h2, h3⟩ := h.wtSelect_heads hk
  refine ⟨q, hq, ?_, h2, h3⟩
  have hs := h.sym c hc
  change _ = some (un (symL R c)) at hs
  unfold RLEString.selectOnRuns
  rw [hs]
  simp only [Option.bind_eq_bind, Option.bind_some, un_sym_count h.pos]
  have : 1 ≤ k + 1 ∧ k + 1 ≤ crank R c R.length := by omega
  simp only [assertC, this, decide_true, if_true, Option.bind_some, h1, and_self]

theorem addRunLengths (h : Rep S R) (k i : Nat) (hk : i + k ≤ R.length) :
    S.addRunLengths k i (rstart R i) = some (rstart R (i + k)) := by
  induction k generalizing i with
  | zero => rfl
  | succ k ih =>
    rw [RLEString.addRunLengths, h.runLength (show i < R.length by omega)]
    simp only [Option.bind_eq_bind, Option.bind_some]
    rw [← rstart_succ, ih (i+1) (by omega)]
    congr 2; omega

theorem ustart_find (L : List (Nat × Bool)) {i : Nat} (h : i < ustart L L.length) :
    ∃ k, k < L.length ∧ ustart L k ≤ i ∧ i < ustart L (k+1) := by
  have key : ∀ m, m ≤ L.length → i < ustart L m → ∃ k, k < m ∧ ustart L k ≤ i ∧ i < ustart L (k+1) := by
    intro m
    induction m with
    | zero => intro _ h; simp [ustart] at h
    | succ m ih =>
      intro hm hi
      by_cases h : i < ustart L m
      · obtain ⟨k, hk, h1, h2⟩ := ih (by omega) h; exact ⟨k, by omega, h1, h2⟩
      · exact ⟨m, by omega, by omega, hi⟩
  obtain ⟨k, hk, h1, h2⟩ := key L.length (Nat.le_refl _) h
  exact ⟨k, hk, h1, h2⟩

theorem select (h : Rep S R) {c k : Nat} (hc : c < S.perSym.length) (hk : k < (expand R).count c) :
    ∃ p, S.select (k+1) c = some p ∧ (expand R)[p]? = some c ∧ ((expand R).take p).count c = k := by
  have hs := h.sym c hc
  change _ = some (un (symL R c)) at hs
  have hcount := hk
  rw [count_expand, ← symL_length_ustart] at hk
  obtain ⟨m, hm, h1, h2⟩ := ustart_find _ hk
  have hmr : m < crank R c R.length := by
    have : (symL R c).length = crank R c R.length := by
      rw [symL, List.length_map, ← List.countP_eq_length_filter, crank, List.take_length]
    omega
  obtain ⟨q, hq, e1, e2, e3⟩ := h.wtSelect_heads hmr
  have hlen := sym_len h.pos c
  rw [symL_length_ustart] at hk
  have hrank : bvRank (un (symL R c)) k = some m := by
    rw [bvRank, if_pos (by omega), count_take_un (symL_pos h.pos c) hm h1 h2, symL_countP R c m (by omega)]
  have hoff : (if m = 0 then some k else (bvSelect (un (symL R c)) m).bind (fun e => csub k (e+1)))
      = some (k - ustart (symL R c) m) := by
    by_cases h0 : m = 0
    · rw [if_pos h0, h0]; simp [ustart]
    · rw [if_neg h0]
      obtain ⟨m', rfl⟩ : ∃ m', m = m' + 1 := ⟨m - 1, by omega⟩
      rw [sym_select h.pos c m' (by omega)]
      have := ustart_pos (symL_pos h.pos c) (m := m') (by omega)
      rw [Option.bind_some, csub, if_pos (by omega)]
      congr 1; omega
  have hstart : csum R c q = ustart (symL R c) m := by rw [← symL_ustart, e3]
  have hend : csum R c (q+1) = ustart (symL R c) (m+1) := by
    rw [← symL_ustart, crank_succ c hq, e2, if_pos rfl, e3]
  have hlen2 := csum_succ (R := R) (c := c) hq
  rw [if_pos e2] at hlen2
  have hr := rstart_succ hq
  have hp2 : rstart R q + (k - ustart (symL R c) m) < rstart R (q+1) := by omega
  refine ⟨rstart R q + (k - ustart (symL R c) m), ?_, ?_, ?_⟩
  · unfold RLEString.select
    rw [hs]
    have hass : 1 ≤ k + 1 ∧ k + 1 ≤ (un (symL R c)).length := by omega
    have hle : q / S.b * S.b ≤ q := Nat.div_mul_le_self _ _
    simp only [Option.bind_eq_bind, Option.bind_some, assertC, hass, decide_true, if_true, Nat.add_sub_cancel,
      hrank, hoff, e1, h.blockStart hq, and_self]
    rw [h.addRunLengths _ _ (by omega), Nat.add_sub_cancel' hle]
    rfl
  · rw [getElem_expand hq (by omega) hp2, e2]
  · rw [count_take_expand c hq (by omega) (by omega), if_pos e2, hstart]; omega

theorem splitLoop (h : Rep S R) {last : Nat} (hlast : last ≤ rstart R R.length) :
    ∀ (fuel k : Nat) (hk : k < R.length), R.length - k ≤ fuel →
      ∃ e, k ≤ e ∧ e < R.length ∧ last ≤ rstart R (e+1) ∧ (k < e → rstart R e < last) ∧
        S.splitLoop last fuel (grun R k hk) = some ((List.range' k (e + 1 - k)).map
          (fun j => if hj : j < R.length then grun R j hj else ⟨0,0,0,0⟩)) := by
  intro fuel
  induction fuel with
  | zero => intro k hk hf; omega
  | succ fuel ih =>
    intro k hk hf
    rw [RLEString.splitLoop]
    by_cases hc : rstart R (k+1) < last
    · rw [if_pos (by simpa only [grun] using hc)]
      have hk1 : k + 1 < R.length := by
        by_contra hcon
        have := rstart_mono R (show R.length ≤ k + 1 by omega); omega
      simp only [grun, h.runData hk1, Option.bind_eq_bind, Option.bind_some]
      obtain ⟨e, a1, a2, a3, a4, a5⟩ := ih (k+1) hk1 (by omega)
      refine ⟨e, by omega, a2, a3, ?_, ?_⟩
      · intro _
        rcases Nat.lt_or_eq_of_le a1 with hlt | heq
        · exact a4 hlt
        · rw [← heq]; exact hc
      · simp only [grun] at a5
        rw [a5]
        have : e + 1 - k = (e + 1 - (k+1)) + 1 := by omega
        rw [this, List.range'_succ, List.map_cons]
        simp [hk]
    · rw [if_neg (by simpa only [grun] using hc)]
      refine ⟨k, Nat.le_refl _, hk, by omega, by omega, ?_⟩
      rw [show k + 1 - k = 1 by omega]
      simp [grun, hk]

end Rep
end Sri

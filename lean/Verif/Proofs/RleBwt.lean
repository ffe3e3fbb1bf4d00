import Verif.Proofs.RunPos
/-! # The run-length string of a BWT, in terms of suffix-array positions -/
namespace Sri
set_option autoImplicit false

/-- `S` stores the BWT of `T`; `dom` are the symbols it has a bit vector for -/
structure RleBwt (S : RLEString) (T sa : List Nat) : Prop where
  rep : Rep S (runsOf T sa)
  dom : ∀ c ∈ T, c < S.perSym.length

namespace RleBwt
variable {S : RLEString} {T sa : List Nat}

theorem size (h : RleBwt S T sa) : S.size = T.length := by
  rw [h.rep.size_eq, expand_runsOf]; simp

theorem rank (h : RleBwt S T sa) {i c : Nat} (hi : i ≤ T.length) (hc : c ∈ T) : S.rank i c = some (cnt T sa c i) := by
  rw [h.rep.rank (by rw [expand_runsOf]; simpa using hi) (h.dom c hc), expand_runsOf, cnt_take hi]

theorem access (h : RleBwt S T sa) {i : Nat} (hi : i < T.length) : S.access i = some (bwtAt T sa i) := by
  have := h.rep.access (i := i) (by rw [expand_runsOf]; simpa using hi)
  rw [this]; simp [expand_runsOf]

theorem rstart_bounds {i k : Nat} (hk : k < nrun T sa) (h2 : i ≤ tl T sa k) : i < rstart (runsOf T sa) (k+1) := by
  have := rstart_lt hk; rw [tl] at h2; omega

theorem rankAt (h : RleBwt S T sa) {i k : Nat} (hk : k < nrun T sa) (h1 : hd T sa k ≤ i) (h2 : i ≤ tl T sa k) :
    S.rankAt i = some (cnt T sa (bwtAt T sa i) i, bwtAt T sa i, k, hd T sa k, tl T sa k + 1,
      Rep.crank (runsOf T sa) (bwtAt T sa i) k) := by
  have hi : i ≤ T.length := by have := tl_lt hk; omega
  rw [h.rep.rankAt hk h1 (rstart_bounds hk h2), bwt_run hk h1 h2, sy_eq hk, expand_runsOf, cnt_take hi, tl_succ hk]
  rfl

theorem rankSoftRun (h : RleBwt S T sa) {i k : Nat} (hk : k < nrun T sa) (h1 : hd T sa k ≤ i) (h2 : i ≤ tl T sa k) :
    S.rankSoftRun i = some { rnk := k, c := bwtAt T sa i, start := hd T sa k, stop := tl T sa k + 1 } := by
  rw [h.rep.rankSoftRun hk h1 (rstart_bounds hk h2), bwt_run hk h1 h2, sy_eq hk, tl_succ hk]; rfl

/-- rank report: the second component is the number of `c`-runs up to the run containing `i` -/
theorem rankReport (h : RleBwt S T sa) {i k c : Nat} (hc : c ∈ T) (hk : k < nrun T sa) (h1 : hd T sa k ≤ i)
    (h2 : i ≤ tl T sa k) :
    S.rankReport i c = some (cnt T sa c i, Rep.crank (runsOf T sa) c (k+1), decide (bwtAt T sa i = c)) := by
  have hi : i ≤ T.length := by have := tl_lt hk; omega
  rw [h.rep.rankReport (h.dom c hc) hk h1 (rstart_bounds hk h2), bwt_run hk h1 h2, sy_eq hk, expand_runsOf, cnt_take hi]
  have := Rep.crank_succ (R := runsOf T sa) c hk
  by_cases hs : ((runsOf T sa)[k]'hk).1 = c
  · simp [hs]
  · rw [if_neg hs] at this ⊢
    simp [this]

theorem rankReport_end (h : RleBwt S T sa) {c : Nat} (hc : c ∈ T) :
    S.rankReport T.length c = some (cnt T sa c T.length, Rep.crank (runsOf T sa) c (nrun T sa), false) := by
  have := h.rep.rankReport_end (h.dom c hc)
  rw [expand_runsOf] at this
  simp only [List.length_map, List.length_range] at this
  rw [this]
  have := cnt_take (T := T) (sa := sa) (c := c) (Nat.le_refl T.length)
  rw [List.take_of_length_le (by simp)] at this
  rw [this]; rfl

theorem crank_mono (R : List (Nat × Nat)) (c : Nat) {a b : Nat} (h : a ≤ b) : Rep.crank R c a ≤ Rep.crank R c b := by
  have : R.take a = (R.take b).take a := by rw [List.take_take, Nat.min_eq_left h]
  rw [Rep.crank, Rep.crank, this]
  exact (List.take_sublist _ _).countP_le

theorem crank_pos_of_sy {c m k : Nat} (hm : m < nrun T sa) (hs : sy T sa m = c) (hk : m < k) :
    0 < Rep.crank (runsOf T sa) c k := by
  have h1 := Rep.crank_succ (R := runsOf T sa) c hm
  rw [if_pos (by rw [← sy_eq hm]; exact hs)] at h1
  have h2 := crank_mono (runsOf T sa) c (show m + 1 ≤ k by omega)
  omega

/-- the last `c`-run not after run `k` -/
theorem last_run (h : RleBwt S T sa) {c k m : Nat} (hc : c ∈ T) (hk : k < nrun T sa) (hm : m ≤ k) (hs : sy T sa m = c) :
    ∃ q, q ≤ k ∧ S.selectOnRuns (Rep.crank (runsOf T sa) c (k+1)) c = some q ∧ sy T sa q = c ∧
      ∀ j, q < j → j ≤ k → sy T sa j ≠ c := by
  have hpos := crank_pos_of_sy (show m < nrun T sa by omega) hs (show m < k + 1 by omega)
  have hmono := crank_mono (runsOf T sa) c (show k + 1 ≤ (runsOf T sa).length from hk)
  obtain ⟨q, hq, e1, e2, e3⟩ := h.rep.selectOnRuns (c := c) (k := Rep.crank (runsOf T sa) c (k+1) - 1) (h.dom c hc) (by omega)
  rw [show Rep.crank (runsOf T sa) c (k+1) - 1 + 1 = Rep.crank (runsOf T sa) c (k+1) by omega] at e1
  have hq1 := Rep.crank_succ (R := runsOf T sa) c hq
  rw [if_pos e2] at hq1
  refine ⟨q, ?_, e1, by rw [sy_eq hq]; exact e2, ?_⟩
  · by_contra hlt
    have := crank_mono (runsOf T sa) c (show k + 1 ≤ q by omega)
    omega
  · intro j h1 h2 h3
    have hjn : j < nrun T sa := by omega
    have hj1 := Rep.crank_succ (R := runsOf T sa) c hjn
    rw [if_pos (by rw [← sy_eq hjn]; exact h3)] at hj1
    have a := crank_mono (runsOf T sa) c (show q + 1 ≤ j by omega)
    have b := crank_mono (runsOf T sa) c (show j + 1 ≤ k + 1 by omega)
    omega

end RleBwt

section
variable {T sa : List Nat}

theorem cnt_succ (c i : Nat) : cnt T sa c (i+1) = cnt T sa c i + if bwtAt T sa i = c then 1 else 0 := by
  rw [cnt, Nat.count_succ]; rfl

theorem cnt_mono (c : Nat) {a b : Nat} (h : a ≤ b) : cnt T sa c a ≤ cnt T sa c b := Nat.count_monotone _ h

theorem cnt_none {c a b : Nat} (hab : a ≤ b) (h : ∀ i, a ≤ i → i < b → bwtAt T sa i ≠ c) : cnt T sa c b = cnt T sa c a := by
  induction b with
  | zero => rw [show a = 0 by omega]
  | succ b ih =>
    rcases Nat.lt_or_eq_of_le hab with hlt | rfl
    · rw [cnt_succ, if_neg (h b (by omega) (by omega)), ih (by omega) (fun i h1 h2 => h i h1 (by omega))]; rfl
    · rfl

theorem cnt_lt_exists {c a b : Nat} (h : cnt T sa c a < cnt T sa c b) : ∃ i, a ≤ i ∧ i < b ∧ bwtAt T sa i = c := by
  by_contra hc
  push Not at hc
  rcases Nat.le_total a b with hab | hab
  · rw [cnt_none hab hc] at h; omega
  · have := cnt_mono (T := T) (sa := sa) c hab; omega

theorem lf_eq (hT : IsText T) (hsa : IsSA T sa) {i : Nat} (h : i < T.length) :
    lfAt T sa i = cumC T (bwtAt T sa i) + cnt T sa (bwtAt T sa i) i := lf_formula hT hsa h

/-- LF of the last occurrence of `c` before `e` -/
theorem lf_last (hT : IsText T) (hsa : IsSA T sa) {y c e : Nat} (he : e ≤ T.length) (hy : y < e) (hb : bwtAt T sa y = c)
    (hno : ∀ i, y < i → i < e → bwtAt T sa i ≠ c) : lfAt T sa y + 1 = cumC T c + cnt T sa c e := by
  rw [lf_eq hT hsa (by omega), hb]
  have := cnt_succ (T := T) (sa := sa) c y
  rw [if_pos hb] at this
  have h2 := cnt_none (T := T) (sa := sa) (c := c) (show y + 1 ≤ e by omega) (fun i h1 h2 => hno i (by omega) h2)
  omega

/-- LF of the first occurrence of `c` from `b` on -/
theorem lf_first (hT : IsText T) (hsa : IsSA T sa) {y c b : Nat} (hn : y < T.length) (hy : b ≤ y) (hb : bwtAt T sa y = c)
    (hno : ∀ i, b ≤ i → i < y → bwtAt T sa i ≠ c) : lfAt T sa y = cumC T c + cnt T sa c b := by
  rw [lf_eq hT hsa hn, hb]
  have h2 := cnt_none (T := T) (sa := sa) (c := c) hy hno
  omega

/-- the last `c`-run starting before `e`, when its tail is before `e` too -/
theorem tail_last (hT : IsText T) (hsa : IsSA T sa) {c q k e : Nat} (hk : k < nrun T sa) (hq : q ≤ k) (hs : sy T sa q = c)
    (hno : ∀ j, q < j → j ≤ k → sy T sa j ≠ c) (he2 : e ≤ tl T sa k + 1) (ht : tl T sa q < e) :
    lfAt T sa (tl T sa q) + 1 = cumC T c + cnt T sa c e := by
  have hkn := tl_lt hk
  have hqn : q < nrun T sa := by omega
  refine lf_last hT hsa (by omega) ht ?_ ?_
  · rw [bwt_run hqn (hd_le_tl hqn) (Nat.le_refl _), hs]
  · intro i h1 h2
    obtain ⟨j, hj, a, b⟩ := run_find (sa := sa) (show i < T.length by omega)
    rw [bwt_run hj a b]
    apply hno
    · by_contra hc
      rcases Nat.lt_or_eq_of_le (show j ≤ q by omega) with hlt | rfl
      · have := tl_strict hlt hqn; omega
      · omega
    · by_contra hc
      have h3 := tl_succ hk
      have h4 := rstart_mono (runsOf T sa) (show k + 1 ≤ j by omega)
      rw [← hd, ← hd] at h4
      omega

end
end Sri

import Verif.Proofs.WordString
import Verif.Proofs.PsiRuns
/-! # Machine arithmetic in the psi core -/
namespace Sri
set_option autoImplicit false

namespace GoodRuns
variable {rs : List (Nat × Nat)} {n : Nat}

/-- the runs are disjoint and not empty, so there are no more runs than positions -/
theorem le_S (h : GoodRuns rs n) : ∀ k, k ≤ rs.length → k ≤ rS rs n k := by
  intro k
  induction k with
  | zero => intro _; exact Nat.zero_le _
  | succ k ih =>
    intro hk
    have h1 := ih (by omega)
    have h2 := h.lt k (by omega)
    have h3 := h.E_le_S k
    omega

theorem length_le (h : GoodRuns rs n) : rs.length ≤ n := by
  have h1 := h.le_S rs.length (Nat.le_refl _)
  have h2 := h.S_le rs.length
  omega

theorem rk_le_S (h : GoodRuns rs n) : ∀ k, rk rs k ≤ rS rs n k := by
  intro k
  induction k with
  | zero => rw [rk_zero]; exact Nat.zero_le _
  | succ k ih =>
    rcases Nat.lt_or_ge k rs.length with hk | hk
    · have h1 := rk_succ rs n hk
      have h2 := h.lt k hk
      have h3 := h.E_le_S k
      omega
    · have h1 := rk_ge rs hk
      have h2 := rk_ge rs (show rs.length ≤ k + 1 by omega)
      have h3 := h.S_mono (show k ≤ k + 1 by omega)
      omega

theorem rk_le (h : GoodRuns rs n) (k : Nat) : rk rs k ≤ n := Nat.le_trans (h.rk_le_S k) (h.S_le k)

theorem rk_step (_ : GoodRuns rs n) (k : Nat) : rk rs k + (rE rs n k - rS rs n k) = rk rs (k + 1) := by
  rcases Nat.lt_or_ge k rs.length with hk | hk
  · exact (rk_succ rs n hk).symm
  · rw [rE_ge hk, rS_ge hk, rk_ge rs hk, rk_ge rs (show rs.length ≤ k + 1 by omega)]; omega

end GoodRuns

theorem mapM_congr_option {α β : Type} {f g : α → Option β} : ∀ {l : List α}, (∀ a ∈ l, f a = g a) → l.mapM f = l.mapM g
  | [], _ => rfl
  | a :: l, h => by
    rw [List.mapM_cons, List.mapM_cons, h a List.mem_cons_self, mapM_congr_option (fun b hb => h b (List.mem_cons_of_mem _ hb))]

namespace PartOK
variable {E : EncVector} {ranks : List Nat} {rs : List (Nat × Nat)} {n h : Nat}

theorem nSamples64 (hp : PartOK E ranks rs n h) (hN : n < 2 ^ 61) : Sri.nSamples64 E = Sri.nSamples E := by
  have hW := W64_eq
  have hl := hp.good.length_le
  have h0 := hp.ne
  have h1 := hp.hpos
  rw [Sri.nSamples64, Sri.nSamples, csub, hp.size, wsub_eq (by omega) (by omega), if_pos (by omega)]
  have := Nat.div_le_self (2 * rs.length - 1) E.dens
  rw [add64_eq (by omega)]
  rfl

theorem init64 (hp : PartOK E ranks rs n h) (hN : n < 2 ^ 61) {idx : Nat} (hi : idx * h < rs.length) :
    RunOps.init64 E idx = RunOps.init E idx := by
  have hW := W64_eq
  have hl := hp.good.length_le
  have h1 : idx ≤ idx * h := Nat.le_mul_of_pos_right _ hp.hpos
  rw [RunOps.init64, RunOps.init, mul64_eq (by omega), add64_eq (by omega)]

theorem start64 (hp : PartOK E ranks rs n h) (hN : n < 2 ^ 61) {st : RunOps} {k x : Nat} (ha : At E rs h st k)
    (hx : st.left ≠ 0 → x = rE rs n (k-1)) : RunOps.nextStart64 E n st x = RunOps.nextStart E n st x := by
  have hW := W64_eq
  have hl := hp.good.length_le
  obtain ⟨l1, l2⟩ := ha.lay
  unfold RunOps.nextStart64 RunOps.nextStart
  simp only [Option.bind_eq_bind, Option.pure_def]
  by_cases h0 : st.left = 0
  · rw [if_neg (by simpa using h0), if_neg (by simpa using h0), hp.nSamples64 hN]
    obtain ⟨m, hm, hmi⟩ := hp.nSamples
    rw [hm, Option.bind_some, Option.bind_some]
    by_cases hlt : st.idx < m
    · have h2 := (hmi _).1 hlt
      have h3 : st.idx ≤ st.idx * h := Nat.le_mul_of_pos_right _ hp.hpos
      have h4 : st.idx * E.dens = 2 * (st.idx * h) := by rw [hp.half]; ring
      have h5 := hp.hpos
      have h6 := hp.half
      rw [if_pos hlt, if_pos hlt, mul64_eq (show st.idx * E.dens < W64 by omega), mul64_eq (show 2 * st.idx < W64 by omega), h4, hp.size,
        wsub_eq (show 2 * (st.idx * h) ≤ 2 * rs.length by omega) (by omega), csub, if_pos (by omega), Option.bind_some,
        wsub_eq (by omega) (by omega), csub, if_pos (by omega), Option.bind_some, add64_eq (by omega)]
    · rw [if_neg hlt, if_neg hlt]
  · rw [if_pos (by simpa using h0), if_pos (by simpa using h0)]
    obtain ⟨l3, l4⟩ := l2 h0
    have hk : k < rs.length := by omega
    have hk0 : 0 < k := by omega
    have hcell := hp.enc.cell (2*k) (by rw [flat_length]; omega) (hp.mod_ne l3 l4 (by omega))
    rw [hp.good.delta_gap hp.nlt hk hk0] at hcell
    have hgap := hp.good.gap (k-1) (by omega)
    rw [show k - 1 + 1 = k by omega] at hgap
    have hS := hp.good.S_le k
    have hs := ha.soft h0
    rw [ha.ptr, hcell, Option.bind_some, Option.bind_some, hx h0, add64_eq (by omega), add64_eq (by omega), wsub_eq (by omega) (by omega)]

theorem stop64 (hp : PartOK E ranks rs n h) (hN : n < 2 ^ 61) {st : RunOps} {k : Nat} (hm : Mid E rs h st k) :
    RunOps.nextEnd64 E n st (rS rs n k) = RunOps.nextEnd E n st (rS rs n k) := by
  have hW := W64_eq
  have hlt := hp.good.lt k hm.lt
  have hcell := hp.enc.cell (2*k+1) (by have := hm.lt; rw [flat_length]; omega) (hp.mod_ne_odd k)
  rw [hp.good.delta_len hp.nlt hm.lt] at hcell
  unfold RunOps.nextEnd64 RunOps.nextEnd
  simp only [Option.bind_eq_bind, Option.pure_def]
  rw [hm.ptr, hcell, Option.bind_some, Option.bind_some, add64_eq (by omega)]

theorem stop_end64 (st : RunOps) : RunOps.nextEnd64 E n st n = some (n, st) := by simp [RunOps.nextEnd64]

/-- the two steps on the way to run `k` -/
theorem next64 (hp : PartOK E ranks rs n h) (hN : n < 2 ^ 61) {st : RunOps} {k x : Nat} (ha : At E rs h st k)
    (hx : st.left ≠ 0 → x = rE rs n (k-1)) :
    ∃ st1 st2, RunOps.nextStart E n st x = some (rS rs n k, st1) ∧ RunOps.nextStart64 E n st x = some (rS rs n k, st1) ∧
      RunOps.nextEnd E n st1 (rS rs n k) = some (rE rs n k, st2) ∧ RunOps.nextEnd64 E n st1 (rS rs n k) = some (rE rs n k, st2) ∧
      At E rs h st2 (min (k+1) rs.length) ∧ st2.soft = k := by
  rw [hp.start64 hN ha hx]
  rcases Nat.lt_or_ge k rs.length with hk | hk
  · obtain ⟨st1, h1, h2⟩ := hp.start ha hk hx
    obtain ⟨st2, h3, h4, h5⟩ := hp.stop h2
    exact ⟨st1, st2, h1, h1, h3, by rw [hp.stop64 hN h2]; exact h3, by rw [Nat.min_eq_left (by omega)]; exact h4, h5⟩
  · have hke : k = rs.length := by have := ha.le; omega
    subst hke
    obtain ⟨st1, h1, h2, _, h3⟩ := hp.start_end (x := x) ha
    rw [rS_ge (Nat.le_refl _), rE_ge (Nat.le_refl _)]
    exact ⟨st1, st1, h1, h1, stop_end st1, stop_end64 st1, by rw [Nat.min_eq_right (by omega)]; exact h2, h3⟩

/-- from the end of run `k` to the end of the run after it -/
theorem step64 (hp : PartOK E ranks rs n h) (hN : n < 2 ^ 61) {st : RunOps} {k : Nat} (ha : At E rs h st (min (k+1) rs.length)) :
    ∃ st1 st2, RunOps.nextStart E n st (rE rs n k) = some (rS rs n (k+1), st1) ∧
      RunOps.nextStart64 E n st (rE rs n k) = some (rS rs n (k+1), st1) ∧
      RunOps.nextEnd E n st1 (rS rs n (k+1)) = some (rE rs n (k+1), st2) ∧
      RunOps.nextEnd64 E n st1 (rS rs n (k+1)) = some (rE rs n (k+1), st2) ∧ At E rs h st2 (min (k+1+1) rs.length) := by
  have hx : st.left ≠ 0 → rE rs n k = rE rs n (min (k+1) rs.length - 1) := by
    intro hl
    rcases Nat.lt_or_ge k rs.length with hj | hj
    · rw [Nat.min_eq_left (by omega), Nat.add_sub_cancel]
    · exfalso
      rw [Nat.min_eq_right (by omega)] at ha
      have := ha.lay.1; omega
  obtain ⟨st1, st2, h1, h2, h3, h4, h5, -⟩ := hp.next64 hN ha hx
  have hE : rE rs n (min (k+1) rs.length) = rE rs n (k+1) := by
    rcases Nat.lt_or_ge (k+1) rs.length with hk | hk
    · rw [Nat.min_eq_left (by omega)]
    · rw [Nat.min_eq_right hk, rE_ge hk, rE_ge (Nat.le_refl _)]
  rw [rS_min] at h1 h2 h3 h4
  rw [hE] at h3 h4
  exact ⟨st1, st2, h1, h2, h3, h4, by rwa [show min (k+1+1) rs.length = min (min (k+1) rs.length + 1) rs.length by omega]⟩

/-- from the start of run `j` to the start of the run after it -/
theorem ready_next64 (hp : PartOK E ranks rs n h) (hN : n < 2 ^ 61) {st : RunOps} {j : Nat} (hr : Ready E rs h st (min j rs.length)) :
    ∃ st1 st2, RunOps.nextEnd E n st (rS rs n j) = some (rE rs n j, st1) ∧ RunOps.nextEnd64 E n st (rS rs n j) = some (rE rs n j, st1) ∧
      RunOps.nextStart E n st1 (rE rs n j) = some (rS rs n (j+1), st2) ∧
      RunOps.nextStart64 E n st1 (rE rs n j) = some (rS rs n (j+1), st2) ∧ Ready E rs h st2 (min (j+1) rs.length) := by
  have key : ∃ st1, RunOps.nextEnd E n st (rS rs n j) = some (rE rs n j, st1) ∧
      RunOps.nextEnd64 E n st (rS rs n j) = some (rE rs n j, st1) ∧ At E rs h st1 (min (j+1) rs.length) := by
    obtain ⟨-, h2 | ⟨h2, h3⟩⟩ := hr
    · have hj : j < rs.length := by have := h2.lt; omega
      rw [Nat.min_eq_left (by omega)] at h2
      obtain ⟨st', a1, a2, a3⟩ := hp.stop h2
      exact ⟨st', a1, by rw [hp.stop64 hN h2]; exact a1, by rw [Nat.min_eq_left (by omega)]; exact a2⟩
    · have hj : rs.length ≤ j := by omega
      rw [rS_ge hj, rE_ge hj]
      exact ⟨st, stop_end st, stop_end64 st, by rw [Nat.min_eq_right (by omega)]; exact h3⟩
  obtain ⟨st1, a1, a1', a2⟩ := key
  have hx : st1.left ≠ 0 → rE rs n j = rE rs n (min (j+1) rs.length - 1) := by
    intro hl
    rcases Nat.lt_or_ge j rs.length with hj | hj
    · rw [Nat.min_eq_left (by omega), Nat.add_sub_cancel]
    · exfalso
      rw [Nat.min_eq_right (by omega)] at a2
      have := a2.lay.1; omega
  obtain ⟨st2, b1, b2⟩ := hp.ready_start (x := rE rs n j) a2 hx
  have b1' := hp.start64 hN a2 hx
  rw [b1] at b1'
  rw [rS_min] at b1 b1'
  exact ⟨st1, st2, a1, a1', b1, b1', b2⟩

theorem upper64 (hp : PartOK E ranks rs n h) (hN : n < 2 ^ 61) (v : Nat) : computeUpperBound64 E v = computeUpperBound E v := by
  have hW := W64_eq
  have hl := hp.good.length_le
  unfold computeUpperBound64 computeUpperBound
  rw [hp.nSamples64 hN]
  obtain ⟨m, hm, hmi⟩ := hp.nSamples
  simp only [hm, Option.bind_eq_bind, Option.bind_some]
  have : ∀ i ∈ List.range m, E.sample64 i = E.sample i := by
    intro i hi
    have hi := (hmi i).1 (List.mem_range.1 hi)
    have h1 : i ≤ i * h := Nat.le_mul_of_pos_right _ hp.hpos
    have h2 : i * E.dens = 2 * (i * h) := by rw [hp.half]; ring
    rw [EncVector.sample64, EncVector.sample, mul64_eq (by omega), mul64_eq (by omega)]
  rw [mapM_congr_option this]

theorem upper_size (hp : PartOK E ranks rs n h) {v ub : Nat} (hub : computeUpperBound E v = some ub) : ub ≤ rs.length := by
  obtain ⟨ub', h1, h2, -⟩ := hp.upper v
  rw [hub, Option.some_inj] at h1
  subst h1
  by_cases h0 : ub = 0
  · omega
  · have h3 := (h2 (ub - 1) (by omega)).1
    have h4 : ub - 1 ≤ (ub - 1) * h := Nat.le_mul_of_pos_right _ hp.hpos
    omega

/-! ## rank -/

theorem rankReportLoop64 (hp : PartOK E ranks rs n h) (hN : n < 2 ^ 61) (w : Nat) : ∀ (f : Nat) (st : RunOps) (k : Nat),
    At E rs h st (min (k+1) rs.length) →
    Agrees (PsiCoreRLE.rankReportLoop E n w f st (rS rs n k) (rE rs n k) (rk rs k))
      (PsiCoreRLE.rankReportLoop64 E n w f st (rS rs n k) (rE rs n k) (rk rs k))
      (fun r => r.1 ≤ n ∧ r.2.1 ≤ n) := by
  have hW := W64_eq
  intro f
  induction f with
  | zero => intro st k _; exact Agrees.none
  | succ f ih =>
    intro st k ha
    rw [PsiCoreRLE.rankReportLoop, PsiCoreRLE.rankReportLoop64]
    simp only [Option.bind_eq_bind]
    refine Agrees.ite (fun _ => ?_) fun _ => Agrees.pure ⟨hp.good.rk_le k, hp.good.S_le k⟩
    refine Agrees.csub fun hle => ?_
    obtain ⟨st1, st2, n1, n2, n3, n4, n5⟩ := hp.step64 hN ha
    have h1 := hp.good.E_le k
    have h2 := hp.good.rk_le (k+1)
    have h3 := hp.good.rk_step k
    rw [wsub_eq hle (by omega), add64_eq (by omega), n1, n2]
    simp only [Option.bind_some, n3, n4]
    rw [h3]
    exact ih st2 (k+1) n5

theorem sampleRank64 (hp : PartOK E ranks rs n h) (hN : n < 2 ^ 61) {idx : Nat} (hi : idx * h < rs.length) :
    PsiCoreRLE.sampleRank64 ranks idx = PsiCoreRLE.sampleRank ranks idx := by
  have hW := W64_eq
  have hl := hp.good.length_le
  have h1 : idx ≤ idx * h := Nat.le_mul_of_pos_right _ hp.hpos
  rw [PsiCoreRLE.sampleRank64, PsiCoreRLE.sampleRank]
  by_cases h0 : idx = 0
  · rw [if_neg (by simpa using h0), if_neg (by simpa using h0)]
  · rw [if_pos h0, if_pos h0, wsub_eq (by omega) (by omega)]

/-- the block of a query, in both -/
theorem block64 (hp : PartOK E ranks rs n h) (hN : n < 2 ^ 61) (w : Nat) :
    ∃ idx st, idx * h < rs.length ∧
      (∃ ub, computeUpperBound E w = some ub ∧ computeUpperBound64 E w = some ub ∧ (if ub ≠ 0 then ub - 1 else 0) = idx ∧
        (if ub ≠ 0 then wsub ub 1 else 0) = idx ∧ (ub ≠ 0 → rS rs n (idx * h) ≤ w)) ∧
      PsiCoreRLE.sampleRank ranks idx = some (rk rs (idx * h)) ∧ PsiCoreRLE.sampleRank64 ranks idx = some (rk rs (idx * h)) ∧
      RunOps.init E idx = some st ∧ RunOps.init64 E idx = some st ∧ At E rs h st (idx * h) ∧ st.left = 0 := by
  have hW := W64_eq
  have hl := hp.good.length_le
  obtain ⟨ub, b1, b2, b3, b4, -⟩ := hp.block w
  obtain ⟨st, s1, s2, s3⟩ := hp.init b2
  have hs := hp.upper_size b1
  refine ⟨_, st, b2, ⟨ub, b1, by rw [hp.upper64 hN]; exact b1, rfl, ?_, fun h0 => ?_⟩, hp.blockRank b2, ?_, s1, ?_, s2, s3⟩
  · by_cases h0 : ub = 0
    · rw [if_neg (by simpa using h0), if_neg (by simpa using h0)]
    · rw [if_pos h0, if_pos h0, wsub_eq (by omega) (by omega)]
  · rw [if_pos h0]; exact b4 h0
  · rw [hp.sampleRank64 hN b2]; exact hp.blockRank b2
  · rw [hp.init64 hN b2]; exact s1

theorem rankReport64 {P : PsiCoreRLE} {c : Nat} (hP : P.parts[c]? = some (E, ranks)) (hn : P.n = n) (hp : PartOK E ranks rs n h)
    (hN : n < 2 ^ 61) (v : Nat) : Agrees (P.rankReport c v) (P.rankReport64 c v) (fun _ => True) := by
  have hW := W64_eq
  have hn0 : 0 < n := by have := hp.good.lt 0 hp.ne; omega
  unfold PsiCoreRLE.rankReport PsiCoreRLE.rankReport64
  simp only [Option.bind_eq_bind, Option.pure_def, hn, hP, Option.bind_some]
  refine Agrees.assertC fun hv => ?_
  have hv : v ≤ n := of_decide_eq_true hv
  set w := if v = n then n - 1 else v with hw
  have hc1 : PsiCoreRLE.clampLast n v = some w := by
    rw [hw, PsiCoreRLE.clampLast]
    by_cases h0 : v = n
    · rw [if_pos h0, if_pos h0, csub, if_pos (by omega), h0]
    · rw [if_neg h0, if_neg h0]
  have hc2 : (if decide (v = n) = true then wsub v 1 else v) = w := by
    rw [hw]
    by_cases h0 : v = n
    · rw [if_pos h0, if_pos (by simpa using h0), wsub_eq (by omega) (by omega), h0]
    · rw [if_neg h0, if_neg (by simpa using h0)]
  have hc3 : (if decide (v = n) = true then add64 w 1 else w) = v := by
    rw [hw]
    by_cases h0 : v = n
    · rw [if_pos h0, if_pos (by simpa using h0), add64_eq (by omega)]; omega
    · rw [if_neg h0, if_neg (by simpa using h0)]
  rw [hc1, hc2, hc3, Option.bind_some]
  obtain ⟨idx, st, i1, ⟨ub, u1, u2, u3, u4, u5⟩, r1, r2, s1, s2, s3, s4⟩ := hp.block64 hN w
  obtain ⟨st1, st2, n1, n2, n3, n4, n5, -⟩ := hp.next64 hN (x := 0) s3 (by intro hc; exact absurd s4 hc)
  rw [u1, u2, Option.bind_some, Option.bind_some, u3, u4, r1, r2]
  simp only [Option.bind_some, s1, s2, n1, n2, n3, n4]
  refine Agrees.bind (hp.rankReportLoop64 hN w (E.size + 1) st2 (idx * h) n5) fun r hr _ => ?_
  obtain ⟨rank, s, e, st'⟩ := r
  obtain ⟨h1, h2⟩ := hr
  dsimp only at h1 h2 ⊢
  by_cases hs : s < v
  · rw [if_pos hs, if_pos hs, wsub_eq (by omega) (by omega), add64_eq (by omega)]
    exact Agrees.pure trivial
  · rw [if_neg hs, if_neg hs]
    exact Agrees.pure trivial

theorem rankLoop64 (hp : PartOK E ranks rs n h) (hN : n < 2 ^ 61) (v : Nat) : ∀ (f : Nat) (st : RunOps) (k : Nat),
    Ready E rs h st (min k rs.length) →
    Agrees (PsiCoreRLE.rankLoop E n v f st (rS rs n k) (rk rs k)) (PsiCoreRLE.rankLoop64 E n v f st (rS rs n k) (rk rs k))
      (fun r => r.1 ≤ n ∧ r.2 ≤ n) := by
  have hW := W64_eq
  intro f
  induction f with
  | zero => intro st k _; exact Agrees.none
  | succ f ih =>
    intro st k hr
    obtain ⟨st1, st2, n1, n2, n3, n4, n5⟩ := hp.ready_next64 hN hr
    have h1 := hp.good.E_le k
    have h2 := hp.good.rk_le (k+1)
    have h3 := hp.good.rk_step k
    rw [PsiCoreRLE.rankLoop, PsiCoreRLE.rankLoop64]
    simp only [Option.bind_eq_bind, Option.bind_some, Option.pure_def, n1, n2]
    refine Agrees.csub fun hle => ?_
    rw [wsub_eq hle (by omega), add64_eq (by omega), h3]
    refine Agrees.ite (fun _ => ?_) fun _ => Agrees.pure ⟨h1, h2⟩
    simp only [Option.bind_some, n3, n4]
    exact Agrees.ite (fun _ => ih st2 (k+1) n5) fun _ => Agrees.pure ⟨h1, h2⟩

theorem rank64 {P : PsiCoreRLE} {c : Nat} (hP : P.parts[c]? = some (E, ranks)) (hn : P.n = n) (hp : PartOK E ranks rs n h)
    (hN : n < 2 ^ 61) (v : Nat) : Agrees (P.rank c v) (P.rank64 c v) (fun _ => True) := by
  have hW := W64_eq
  unfold PsiCoreRLE.rank PsiCoreRLE.rank64
  simp only [Option.bind_eq_bind, Option.pure_def, hn, hP, Option.bind_some]
  refine Agrees.assertC fun hv => ?_
  obtain ⟨idx, st, i1, ⟨ub, u1, u2, u3, u4, u5⟩, r1, r2, s1, s2, s3, s4⟩ := hp.block64 hN v
  rw [u1, u2, Option.bind_some, Option.bind_some]
  by_cases h0 : ub = 0
  · rw [if_pos h0, if_pos h0]; exact Agrees.pure trivial
  · rw [if_pos h0] at u3 u4
    have hx : st.left ≠ 0 → 0 = rE rs n (idx * h - 1) := by intro hc; exact absurd s4 hc
    obtain ⟨st1, n1, n2⟩ := hp.ready_start (x := 0) s3 hx
    have n1' := hp.start64 hN s3 hx
    rw [n1] at n1'
    rw [if_neg h0, if_neg h0, u3, u4]
    simp only [r1, r2, s1, s2, n1, n1', Option.bind_some]
    refine Agrees.bind (hp.rankLoop64 hN v (E.size + 1) st1 (idx * h) (by rw [Nat.min_eq_left (by omega)]; exact n2)) fun r hr _ => ?_
    obtain ⟨e, rank⟩ := r
    obtain ⟨h1, h2⟩ := hr
    dsimp only at h1 h2 ⊢
    by_cases hs : v < e
    · rw [if_pos hs, if_pos hs, wsub_eq (show v ≤ e by omega) (by omega)]
      have := Agrees.csub (a := rank) (b := e - v) (f := some) (y := some (wsub rank (e - v))) (Q := fun _ => True) fun hle => by
        rw [wsub_eq hle (by omega)]
        exact Agrees.pure trivial
      rwa [Option.bind_fun_some] at this
    · rw [if_neg hs, if_neg hs]; exact Agrees.pure trivial

/-! ## select -/

theorem selectLoop64 (hp : PartOK E ranks rs n h) (hN : n < 2 ^ 61) (t : Nat) : ∀ (f : Nat) (st : RunOps) (k x : Nat),
    At E rs h st (min k rs.length) → (st.left ≠ 0 → x = rE rs n (min k rs.length - 1)) →
    Agrees (PsiCoreRLE.selectLoop E n t f st x (rk rs k)) (PsiCoreRLE.selectLoop64 E n t f st x (rk rs k))
      (fun r => ∃ k1, r.1 = { start := rS rs n k1, stop := rE rs n k1, rankEnd := rk rs (k1+1) } ∧ t < rk rs (k1+1) ∧
        At E rs h r.2 (min (k1+1) rs.length)) := by
  have hW := W64_eq
  intro f
  induction f with
  | zero => intro st k x _ _; exact Agrees.none
  | succ f ih =>
    intro st k x ha hx
    obtain ⟨st1, st2, n1, n2, n3, n4, n5, -⟩ := hp.next64 hN ha hx
    have hE : rE rs n (min k rs.length) = rE rs n k := by
      rcases Nat.lt_or_ge k rs.length with hk | hk
      · rw [Nat.min_eq_left (by omega)]
      · rw [Nat.min_eq_right hk, rE_ge hk, rE_ge (Nat.le_refl _)]
    rw [rS_min] at n1 n2 n3 n4
    rw [hE] at n3 n4
    rw [show min (min k rs.length + 1) rs.length = min (k+1) rs.length by omega] at n5
    have h1 := hp.good.E_le k
    have h2 := hp.good.rk_le (k+1)
    have h3 := hp.good.rk_step k
    rw [PsiCoreRLE.selectLoop, PsiCoreRLE.selectLoop64]
    simp only [Option.bind_eq_bind, Option.pure_def]
    rw [n1, Option.bind_some, n2, Option.bind_some]
    dsimp only
    rw [n3, Option.bind_some, n4, Option.bind_some]
    dsimp only
    refine Agrees.csub fun hle => ?_
    rw [wsub_eq hle (by omega), add64_eq (by omega), h3]
    refine Agrees.ite (fun _ => ih st2 (k+1) _ n5 ?_) fun hgt => Agrees.pure ⟨k, rfl, by omega, n5⟩
    intro hl
    rcases Nat.lt_or_ge k rs.length with hj | hj
    · rw [Nat.min_eq_left (by omega), Nat.add_sub_cancel]
    · exfalso
      rw [Nat.min_eq_right (by omega)] at n5
      have := n5.lay.1; omega

theorem selectCore64 (hp : PartOK E ranks rs n h) (hN : n < 2 ^ 61) {rnk : Nat} (hr : rnk < W64) :
    Agrees (PsiCoreRLE.selectCore E ranks n rnk) (PsiCoreRLE.selectCore64 E ranks n rnk)
      (fun r => ∃ k1, r.1 = { start := rS rs n k1, stop := rE rs n k1, rankEnd := rk rs (k1+1) } ∧ rnk ≤ rk rs (k1+1) ∧ 1 ≤ rnk ∧
        At E rs h r.2 (min (k1+1) rs.length)) := by
  have hW := W64_eq
  have hl := hp.good.length_le
  unfold PsiCoreRLE.selectCore PsiCoreRLE.selectCore64
  simp only [Option.bind_eq_bind]
  refine Agrees.csub fun h1 => ?_
  rw [wsub_eq h1 hr]
  set t := rnk - 1 with ht
  obtain ⟨u1, -, -⟩ := PartOK.upperBound_spec ranks t
  set ub := upperBound ranks t with hub
  obtain ⟨r1, r2⟩ := hp.rlen
  have hle : ub * h ≤ ranks.length * h := Nat.mul_le_mul_right _ u1
  have hub1 : ub * h < rs.length := by omega
  have hub2 : ub ≤ ub * h := Nat.le_mul_of_pos_right _ hp.hpos
  obtain ⟨st, s1, s2, s3⟩ := hp.init hub1
  have e1 : (if ub ≠ 0 then ranks.getD (ub - 1) 0 else 0) = rk rs (ub * h) := by
    by_cases h0 : ub = 0
    · rw [if_neg (by omega), h0]; simp [rk_zero]
    · rw [if_pos h0, List.getD_eq_getElem?_getD, hp.rget ub (by omega) hub1]; rfl
  have e2 : (if ub ≠ 0 then ranks.getD (wsub ub 1) 0 else 0) = rk rs (ub * h) := by
    rw [← e1]
    by_cases h0 : ub = 0
    · rw [if_neg (by omega), if_neg (by omega)]
    · rw [if_pos h0, if_pos h0, wsub_eq (by omega) (by omega)]
  rw [e1, e2, hp.init64 hN hub1, s1, Option.bind_some, Option.bind_some]
  have := hp.selectLoop64 hN t (E.size + 1) st (ub * h) 0 (by rw [Nat.min_eq_left (by omega)]; exact s2) (fun hc => absurd s3 hc)
  exact this.mono fun r _ ⟨k1, g1, g2, g3⟩ => ⟨k1, g1, by omega, h1, g3⟩

theorem selValue64 (hp : PartOK E ranks rs n h) (hN : n < 2 ^ 61) {k1 rnk : Nat} :
    Agrees (PsiCoreRLE.selValue { start := rS rs n k1, stop := rE rs n k1, rankEnd := rk rs (k1+1) } rnk)
      (some (PsiCoreRLE.selValue64 { start := rS rs n k1, stop := rE rs n k1, rankEnd := rk rs (k1+1) } rnk)) (fun v => v < n) := by
  have hW := W64_eq
  have h1 := hp.good.E_le k1
  have h2 := hp.good.rk_le (k1+1)
  unfold PsiCoreRLE.selValue PsiCoreRLE.selValue64
  simp only [Option.bind_eq_bind]
  refine Agrees.csub fun g1 => Agrees.csub fun g2 => ?_
  rw [wsub_eq g1 (by omega), wsub_eq g2 (by omega)]
  have := Agrees.csub (a := rE rs n k1 - 1) (b := rk rs (k1+1) - rnk) (f := some) (y := some (wsub (rE rs n k1 - 1) (rk rs (k1+1) - rnk)))
    (Q := fun v => v < n) fun hle => by
      rw [wsub_eq hle (by omega)]
      exact Agrees.pure (by omega)
  rwa [Option.bind_fun_some] at this

variable {P : PsiCoreRLE} {c : Nat}

theorem select64 (hP : P.parts[c]? = some (E, ranks)) (hn : P.n = n) (hp : PartOK E ranks rs n h) (hN : n < 2 ^ 61) {rnk : Nat}
    (hr : rnk < W64) : Agrees (P.select c rnk) (P.select64 c rnk) (fun v => v < n) := by
  unfold PsiCoreRLE.select PsiCoreRLE.select64
  simp only [Option.bind_eq_bind, Option.pure_def, hn, hP, Option.bind_some]
  refine Agrees.bind (hp.selectCore64 hN hr) fun r hr _ => ?_
  obtain ⟨run, st⟩ := r
  obtain ⟨k1, g1, -⟩ := hr
  dsimp only at g1 ⊢
  subst g1
  exact hp.selValue64 hN

theorem selectReport64 (hP : P.parts[c]? = some (E, ranks)) (hn : P.n = n) (hp : PartOK E ranks rs n h) (hN : n < 2 ^ 61) {rnk : Nat}
    (hr : rnk < W64) : Agrees (P.selectReport c rnk) (P.selectReport64 c rnk) (fun r => r.1 < n) := by
  unfold PsiCoreRLE.selectReport PsiCoreRLE.selectReport64
  simp only [Option.bind_eq_bind, Option.pure_def, hn, hP, Option.bind_some]
  refine Agrees.bind (hp.selectCore64 hN hr) fun r hr _ => ?_
  obtain ⟨run, st⟩ := r
  obtain ⟨k1, g1, -⟩ := hr
  dsimp only at g1 ⊢
  subst g1
  have := (hp.selValue64 hN (k1 := k1) (rnk := rnk)).bind (f := fun v => some (v, rS rs n k1, rE rs n k1, st.soft))
    (g := fun v => some (v, rS rs n k1, rE rs n k1, st.soft)) (Q := fun r => r.1 < n) fun v hv _ => Agrees.pure hv
  rwa [Option.bind_some] at this

/-! ## the runs -/

theorem splitSkip64 (hp : PartOK E ranks rs n h) (hN : n < 2 ^ 61) (w : Nat) : ∀ (f : Nat) (st : RunOps) (k : Nat),
    Ready E rs h st (min (k+1) rs.length) →
    Agrees (PsiCoreRLE.splitSkip E n w f st (rS rs n k) (rE rs n k) (rS rs n (k+1)))
      (PsiCoreRLE.splitSkip64 E n w f st (rS rs n k) (rE rs n k) (rS rs n (k+1)))
      (fun r => ∃ k1, r.1 = rS rs n k1 ∧ r.2.1 = rE rs n k1 ∧ r.2.2.1 = rS rs n (k1+1) ∧ Ready E rs h r.2.2.2 (min (k1+1) rs.length)) := by
  intro f
  induction f with
  | zero => intro st k _; exact Agrees.none
  | succ f ih =>
    intro st k hr
    obtain ⟨st1, st2, n1, n2, n3, n4, n5⟩ := hp.ready_next64 hN hr
    rw [PsiCoreRLE.splitSkip, PsiCoreRLE.splitSkip64]
    simp only [Option.bind_eq_bind, Option.bind_some, n1, n2, n3, n4]
    exact Agrees.ite (fun _ => ih st2 (k+1) n5) fun _ => Agrees.pure ⟨k, rfl, rfl, rfl, hr⟩

theorem splitReport64 (hp : PartOK E ranks rs n h) (hN : n < 2 ^ 61) (last : Nat) : ∀ (f : Nat) (st : RunOps) (first k : Nat),
    Ready E rs h st (min (k+1) rs.length) →
    Agrees (PsiCoreRLE.splitReport E n last c f st first (rS rs n k) (rE rs n k) (rS rs n (k+1)))
      (PsiCoreRLE.splitReport64 E n last c f st first (rS rs n k) (rE rs n k) (rS rs n (k+1))) (fun _ => True) := by
  have hW := W64_eq
  have hl := hp.good.length_le
  intro f
  induction f with
  | zero => intro st first k _; exact Agrees.none
  | succ f ih =>
    intro st first k hr
    obtain ⟨st1, st2, n1, n2, n3, n4, n5⟩ := hp.ready_next64 hN hr
    have hs : st.soft ≤ rs.length := by have := hr.1; omega
    rw [PsiCoreRLE.splitReport, PsiCoreRLE.splitReport64]
    simp only [Option.bind_eq_bind, Option.bind_some, Option.pure_def, n1, n2, n3, n4]
    refine Agrees.ite (fun _ => Agrees.csub fun hle => ?_) fun _ => Agrees.ite (fun _ => Agrees.csub fun hle => ?_) fun _ => Agrees.pure trivial
    · rw [wsub_eq hle (by omega)]
      exact Agrees.bind (ih st2 _ (k+1) n5) fun _ _ _ => Agrees.pure trivial
    · rw [wsub_eq hle (by omega)]
      exact Agrees.pure trivial

theorem splitInRunsC64 (hP : P.parts[c]? = some (E, ranks)) (hn : P.n = n) (hp : PartOK E ranks rs n h) (hN : n < 2 ^ 61)
    (first last : Nat) : Agrees (P.splitInRunsC c first last) (P.splitInRunsC64 c first last) (fun _ => True) := by
  unfold PsiCoreRLE.splitInRunsC PsiCoreRLE.splitInRunsC64
  simp only [Option.bind_eq_bind, hn, hP, Option.bind_some]
  obtain ⟨idx, st, i1, ⟨ub, u1, u2, u3, u4, u5⟩, r1, r2, s1, s2, s3, s4⟩ := hp.block64 hN first
  have hx : st.left ≠ 0 → 0 = rE rs n (idx * h - 1) := by intro hc; exact absurd s4 hc
  obtain ⟨st1, n1, n2⟩ := hp.ready_start (x := 0) s3 hx
  have n1' := hp.start64 hN s3 hx
  rw [n1] at n1'
  obtain ⟨st2, st3, m1, m2, m3, m4, m5⟩ := hp.ready_next64 hN (show Ready E rs h st1 (min (idx * h) rs.length) by
    rw [Nat.min_eq_left (by omega)]; exact n2)
  rw [u1, u2, Option.bind_some, Option.bind_some, u3, u4]
  simp only [s1, s2, n1, n1', m1, m2, m3, m4, Option.bind_some]
  refine Agrees.bind (hp.splitSkip64 hN first (E.size + 2) st3 (idx * h) m5) fun r hr _ => ?_
  obtain ⟨s, e, next, st4⟩ := r
  obtain ⟨k1, g1, g2, g3, g4⟩ := hr
  dsimp only at g1 g2 g3 g4 ⊢
  subst g1 g2 g3
  exact hp.splitReport64 hN last _ st4 _ k1 g4

theorem forwardLoop64 (hp : PartOK E ranks rs n h) (hN : n < 2 ^ 61) (last : Nat) : ∀ (f : Nat) (st : RunOps) (first k : Nat),
    At E rs h st (min (k+1) rs.length) →
    Agrees (PsiCoreRLE.forwardLoop E n last c f st first { start := rS rs n k, stop := rE rs n k, rankEnd := rk rs (k+1) })
      (PsiCoreRLE.forwardLoop64 E n last c f st first { start := rS rs n k, stop := rE rs n k, rankEnd := rk rs (k+1) })
      (fun _ => True) := by
  have hW := W64_eq
  intro f
  induction f with
  | zero => intro st first k _; exact Agrees.none
  | succ f ih =>
    intro st first k ha
    obtain ⟨st1, st2, n1, n2, n3, n4, n5⟩ := hp.step64 hN ha
    have h1 := hp.good.E_le (k+1)
    have h2 := hp.good.rk_le (k+1+1)
    have h3 := hp.good.rk_step (k+1)
    rw [PsiCoreRLE.forwardLoop, PsiCoreRLE.forwardLoop64]
    simp only [Option.bind_eq_bind, Option.bind_some, Option.pure_def, n1, n2, n3, n4]
    refine Agrees.ite (fun _ => Agrees.csub fun hle => ?_) fun _ => ?_
    · rw [wsub_eq hle (by omega), add64_eq (by omega), h3]
      exact Agrees.bind (ih st2 _ (k+1) n5) fun _ _ _ => Agrees.pure trivial
    · intro r hr
      obtain ⟨v, hv, hr⟩ := Option.bind_eq_some_iff.1 hr
      obtain ⟨g1, g2⟩ := hp.selValue64 hN v hv
      rw [Option.some_inj] at g1
      rw [g1, add64_eq (by omega)]
      exact ⟨hr, trivial⟩

theorem computeForwardRuns64 (hP : P.parts[c]? = some (E, ranks)) (hn : P.n = n) (hp : PartOK E ranks rs n h) (hN : n < 2 ^ 61)
    {first last : Nat} (hf : first < W64) (hl : last < W64) :
    Agrees (P.computeForwardRuns c first last) (P.computeForwardRuns64 c first last) (fun _ => True) := by
  unfold PsiCoreRLE.computeForwardRuns PsiCoreRLE.computeForwardRuns64
  simp only [Option.bind_eq_bind, hn, hP, Option.bind_some]
  refine Agrees.bind (hp.selectCore64 hN hf) fun r hr _ => ?_
  obtain ⟨run, st⟩ := r
  obtain ⟨k1, g1, -, -, g2⟩ := hr
  dsimp only at g1 g2 ⊢
  subst g1
  intro r hr
  obtain ⟨v, hv, hr⟩ := Option.bind_eq_some_iff.1 hr
  obtain ⟨e1, -⟩ := hp.selValue64 hN v hv
  rw [Option.some_inj] at e1
  rw [e1]
  have key : Agrees ((csub last 1).bind fun a => PsiCoreRLE.forwardLoop E n a c (E.size + 1) st v
      { start := rS rs n k1, stop := rE rs n k1, rankEnd := rk rs (k1 + 1) })
      (PsiCoreRLE.forwardLoop64 E n (wsub last 1) c (E.size + 1) st v
      { start := rS rs n k1, stop := rE rs n k1, rankEnd := rk rs (k1 + 1) }) (fun _ => True) := by
    refine Agrees.csub fun hle => ?_
    rw [wsub_eq hle hl]
    exact hp.forwardLoop64 hN _ _ st _ k1 g2
  exact key r hr

theorem traverseLoop64 (hp : PartOK E ranks rs n h) (hN : n < 2 ^ 61) : ∀ (f : Nat) (st : RunOps) (k : Nat),
    At E rs h st (min (k+1) rs.length) →
    PsiCoreRLE.traverseLoop64 E n f st (rS rs n k) (rE rs n k) = PsiCoreRLE.traverseLoop E n f st (rS rs n k) (rE rs n k) := by
  intro f
  induction f with
  | zero => intro st k _; rfl
  | succ f ih =>
    intro st k ha
    obtain ⟨st1, st2, n1, n2, n3, n4, n5⟩ := hp.step64 hN ha
    rw [PsiCoreRLE.traverseLoop, PsiCoreRLE.traverseLoop64]
    simp only [Option.bind_eq_bind, Option.bind_some, n1, n2, n3, n4, ih st2 (k+1) n5]

theorem traverse64 (hP : P.parts[c]? = some (E, ranks)) (hn : P.n = n) (hp : PartOK E ranks rs n h) (hN : n < 2 ^ 61) :
    P.traverse64 c = P.traverse c := by
  obtain ⟨st, s1, s2, s3⟩ := hp.init (idx := 0) (by have := hp.ne; omega)
  obtain ⟨st1, st2, n1, n2, n3, n4, n5, -⟩ := hp.next64 hN (x := 0) s2 (by intro hc; exact absurd s3 hc)
  rw [Nat.zero_mul] at n1 n2 n3 n4 n5
  have hi := hp.init64 hN (idx := 0) (by have := hp.ne; omega)
  simp only [PsiCoreRLE.traverse, PsiCoreRLE.traverse64, hP, hn, hi, s1, n1, n2, n3, n4, Option.bind_eq_bind, Option.bind_some,
    hp.traverseLoop64 hN _ st2 0 n5]

/-! ## rankSoftRun -/

theorem softLoop64 (hp : PartOK E ranks rs n h) (hN : n < 2 ^ 61) (v idx : Nat) : ∀ (left ptr k : Nat), k < rs.length →
    ptr = eoff E.dens (flat rs) (2*k+1+1) → Lay h rs.length left (idx+1) (k+1) → idx * h < k + 1 →
    PsiCoreRLE.softLoop64 E v left ptr (rS rs n k) (rE rs n k) (k+1) = PsiCoreRLE.softLoop E v left ptr (rS rs n k) (rE rs n k) (k+1) := by
  have hW := W64_eq
  have hg := hp.good
  have hl := hg.length_le
  intro left
  induction left with
  | zero => intro ptr k _ _ _ _; rfl
  | succ left ih =>
    intro ptr k hk hptr hlay hi
    rw [PsiCoreRLE.softLoop, PsiCoreRLE.softLoop64]
    have hk2 : k + 1 < rs.length := by have := hlay.1; omega
    have hcell := hp.enc.cell (2*(k+1)) (by rw [flat_length]; omega)
      (hp.mod_ne (idx := idx+1) (by omega) (by rw [Nat.add_sub_cancel]; exact hi) (by have := hlay.1; omega))
    rw [hg.delta_gap hp.nlt hk2 (by omega), Nat.add_sub_cancel] at hcell
    have hcell2 := hp.enc.cell (2*(k+1)+1) (by rw [flat_length]; omega) (hp.mod_ne_odd (k+1))
    rw [hg.delta_len hp.nlt hk2] at hcell2
    have hgap := hg.gap k hk2
    have hlt := hg.lt (k+1) hk2
    rw [show 2 * k + 1 + 1 = 2 * (k+1) by omega] at hptr
    simp only [hptr, hcell, Option.bind_eq_bind, Option.bind_some, hcell2]
    rw [add64_eq (show rE rs n k + (rS rs n (k + 1) - rE rs n k) < W64 by omega),
      show rE rs n k + (rS rs n (k + 1) - rE rs n k) = rS rs n (k+1) by omega,
      add64_eq (show rS rs n (k + 1) + (rE rs n (k + 1) - rS rs n (k + 1)) < W64 by omega),
      show rS rs n (k + 1) + (rE rs n (k + 1) - rS rs n (k + 1)) = rE rs n (k+1) by omega, add64_eq (show k + 1 + 1 < W64 by omega),
      ih _ (k+1) hk2 rfl ⟨by have := hlay.1; omega, fun _ => ⟨by omega, by rw [Nat.add_sub_cancel]; omega⟩⟩ (by omega)]

theorem rankSoftRunC64 (hP : P.parts[c]? = some (E, ranks)) (hn : P.n = n) (hp : PartOK E ranks rs n h) (hN : n < 2 ^ 61) (v : Nat) :
    P.rankSoftRunC64 c v = P.rankSoftRunC c v := by
  have hW := W64_eq
  have hg := hp.good
  have hl := hg.length_le
  have hh := hp.hpos
  have h6 := hp.half
  obtain ⟨ub, b1, b2, b3, b4, b5, _⟩ := hp.block v
  have hs := hp.upper_size b1
  unfold PsiCoreRLE.rankSoftRunC PsiCoreRLE.rankSoftRunC64
  simp only [Option.bind_eq_bind, Option.pure_def]
  rw [hP, Option.bind_some, Option.bind_some]
  dsimp only
  rw [hn, hp.upper64 hN, b1, Option.bind_some, Option.bind_some]
  by_cases h0 : ub = 0
  · rw [if_pos h0, if_pos h0]
  · rw [if_neg h0, if_neg h0]
    rw [if_pos h0] at b2
    rw [wsub_eq (show 1 ≤ ub by omega) (by omega)]
    set idx := ub - 1 with hidx
    have h3 : idx ≤ idx * h := Nat.le_mul_of_pos_right _ hh
    have h4 : idx * E.dens = 2 * (idx * h) := by rw [hp.half]; ring
    have hsucc : (idx + 1) * h = idx * h + h := Nat.succ_mul _ _
    obtain ⟨sp1, sp2⟩ := hp.enc.sample idx (by rw [hp.half, flat_length, show idx * (2 * h) = 2 * (idx * h) by ring]; omega)
    rw [hp.half, show idx * (2 * h) = 2 * (idx * h) by ring, flat_even rs n b2] at sp1
    rw [hp.half, show idx * (2 * h) = 2 * (idx * h) by ring] at sp2
    have hcell := hp.enc.cell (2*(idx*h)+1) (by rw [flat_length]; omega) (hp.mod_ne_odd (idx*h))
    rw [hg.delta_len hp.nlt b2, eoff, if_pos (by rw [hp.half, Nat.mul_mod_mul_left, Nat.mul_mod_left]), Nat.add_zero] at hcell
    have hlt := hg.lt _ b2
    rw [show eoff (2*h) (flat rs) (2 * (idx * h)) = eoff E.dens (flat rs) (2 * (idx * h)) by rw [hp.half]] at sp2
    rw [mul64_eq (show 2 * idx < W64 by omega), mul64_eq (show idx * E.dens < W64 by omega), h4,
      show 2 * (idx * h) / 2 = idx * h by omega, add64_eq (show idx * h + 1 < W64 by omega), add64_eq (show 2 * idx + 1 < W64 by omega)]
    rw [sp1, Option.bind_some, Option.bind_some]
    by_cases hsv : rS rs n (idx * h) = v
    · rw [if_pos hsv, if_pos hsv]
    · rw [if_neg hsv, if_neg hsv, sp2, Option.bind_some, Option.bind_some, hcell, Option.bind_some, Option.bind_some]
      dsimp only
      rw [add64_eq (show rS rs n (idx * h) + (rE rs n (idx * h) - rS rs n (idx * h)) < W64 by omega),
        show rS rs n (idx * h) + (rE rs n (idx * h) - rS rs n (idx * h)) = rE rs n (idx * h) by omega, hp.size,
        wsub_eq (show 2 * (idx * h) ≤ 2 * rs.length by omega) (by omega), csub, if_pos (by omega), Option.bind_some,
        wsub_eq (show 1 ≤ min E.dens (2 * rs.length - 2 * (idx * h)) / 2 by omega) (by omega), csub, if_pos (by omega), Option.bind_some,
        hp.softLoop64 hN v idx _ _ (idx * h) b2 rfl
          ⟨by omega, fun _ => ⟨by omega, by rw [Nat.add_sub_cancel]; omega⟩⟩ (by omega)]

end PartOK
end Sri

import Verif.Proofs.RunOps
/-! # Queries of PsiCoreRLE on the runs of one symbol (helper lemmas) -/
namespace Sri
set_option autoImplicit false

namespace PartOK
variable {E : EncVector} {ranks : List Nat} {rs : List (Nat × Nat)} {n h : Nat}

theorem blockRank (hp : PartOK E ranks rs n h) {idx : Nat} (hi : idx * h < rs.length) :
    PsiCoreRLE.sampleRank ranks idx = some (rk rs (idx * h)) := by
  rw [PsiCoreRLE.sampleRank]
  by_cases h0 : idx = 0
  · subst h0; simp [rk_zero]
  · rw [if_pos h0]; exact hp.rget idx (by omega) hi

/-- the block from which a query for `w` scans -/
theorem block (hp : PartOK E ranks rs n h) (w : Nat) :
    ∃ ub, computeUpperBound E w = some ub ∧ (if ub ≠ 0 then ub - 1 else 0) * h < rs.length ∧
      (ub = 0 → w < rS rs n 0) ∧ (ub ≠ 0 → rS rs n ((ub - 1) * h) ≤ w) ∧ (ub * h < rs.length → w < rS rs n (ub * h)) ∧
      ∀ k, w < rE rs n k → (if ub ≠ 0 then ub - 1 else 0) * h ≤ k := by
  obtain ⟨ub, h1, h2, h3⟩ := hp.upper w
  have hne := hp.ne
  refine ⟨ub, h1, ?_, ?_, ?_, h3, ?_⟩
  · by_cases h0 : ub = 0
    · rw [if_neg (by omega)]; omega
    · rw [if_pos h0]; exact (h2 (ub-1) (by omega)).1
  · intro h0; subst h0; simpa using h3 (by omega)
  · intro h0; exact (h2 (ub-1) (by omega)).2
  · intro k hk
    by_cases h0 : ub = 0
    · rw [if_neg (by omega)]; omega
    · rw [if_pos h0]
      by_contra hc
      have := (h2 (ub-1) (by omega)).2
      have := hp.good.E_le_S_of_lt (show k < (ub-1)*h by omega)
      omega

/-! ## rank with report -/

theorem rankReportLoop_spec (hp : PartOK E ranks rs n h) {w k1 : Nat} (hk1 : k1 ≤ rs.length) (hw : w < rE rs n k1)
    (hb : ∀ j, j < k1 → rE rs n j ≤ w) (f : Nat) (st : RunOps) (k : Nat) (hk : k ≤ k1) (hf : k1 - k < f)
    (ha : At E rs h st (min (k+1) rs.length)) (hs : st.soft = k) :
    ∃ st', PsiCoreRLE.rankReportLoop E n w f st (rS rs n k) (rE rs n k) (rk rs k)
      = some (rk rs k1, rS rs n k1, rE rs n k1, st') ∧ st'.soft = k1 := by
  induction f generalizing st k with
  | zero => omega
  | succ f ih =>
    rw [PsiCoreRLE.rankReportLoop]
    by_cases hc : rE rs n k ≤ w
    · have hlt : k < k1 := by
        rcases Nat.lt_or_eq_of_le hk with h' | h'
        · exact h'
        · subst h'; omega
      rw [Nat.min_eq_left (by omega)] at ha
      obtain ⟨st1, st2, n1, n2, n3, n4, n5⟩ := hp.next (x := rE rs n k) ha (by intro _; rfl)
      rw [if_pos hc]
      have hSE := hp.good.S_le_E k
      simp only [csub, if_pos hSE, Option.bind_eq_bind, Option.bind_some, n1, n3]
      rw [← rk_succ rs n (by omega)]
      exact ih st2 (k+1) (by omega) (by omega) n4 n5
    · have heq : k = k1 := by
        rcases Nat.lt_or_eq_of_le hk with h' | h'
        · exact absurd (hb k h') hc
        · exact h'
      subst heq
      rw [if_neg hc]
      exact ⟨st, rfl, hs⟩

theorem rankReport_spec {p : Nat → Prop} [DecidablePred p] {P : PsiCoreRLE} {c : Nat} (hP : P.parts[c]? = some (E, ranks))
    (hn : P.n = n) (hp : PartOK E ranks rs n h) (hc : Covers p rs n) {v w k1 : Nat} (hv : v ≤ n)
    (hw : w = if v = n then n - 1 else v) (hk1 : k1 ≤ rs.length) (hw1 : w < rE rs n k1) (hb : ∀ j, j < k1 → rE rs n j ≤ w) :
    P.rankReport c v = some (Nat.count p v, rS rs n k1, rE rs n k1, k1) := by
  have hg := hp.good
  have hne := hp.ne
  have hn0 : 0 < n := by have := hg.lt 0 hne; omega
  obtain ⟨ub, b1, b2, _, _, _, b6⟩ := hp.block w
  obtain ⟨st, s1, s2, s3⟩ := hp.init b2
  obtain ⟨st1, st2, n1, n2, n3, n4, n5⟩ := hp.next (x := 0) s2 (by intro hc; exact absurd s3 hc)
  obtain ⟨st', l1, l2⟩ := hp.rankReportLoop_spec hk1 hw1 hb (E.size + 1) st2 _ (b6 k1 hw1) (by rw [hp.size]; omega) n4 n5
  have hww : PsiCoreRLE.clampLast n v = some w := by
    rw [hw, PsiCoreRLE.clampLast]; split
    · rw [csub, if_pos (by omega)]; congr 1; omega
    · rfl
  rw [PsiCoreRLE.rankReport, assertC, if_pos (by simp; omega)]
  simp only [hP, hn, hww, b1, Option.bind_eq_bind, Option.bind_some]
  rw [hp.blockRank b2]
  simp only [s1, n1, n3, l1, l2, Option.bind_some, Option.pure_def]
  have hcount : (if rS rs n k1 < v then rk rs k1 + (v - rS rs n k1) else rk rs k1) = Nat.count p v := by
    by_cases hvn : v = n
    · rw [if_pos hvn] at hw
      rcases Nat.lt_or_ge k1 rs.length with hlt | hge
      · have h1 := hg.lt k1 hlt
        rw [if_pos (by omega), hc.count_in hg hlt (by omega) (by omega)]
      · have : k1 = rs.length := by omega
        subst this
        rw [rS_ge (Nat.le_refl _), if_neg (by omega), hvn, hc.count_total hg]
    · rw [if_neg hvn] at hw
      subst hw
      by_cases hs : rS rs n k1 < w
      · rw [if_pos hs]
        have hlt : k1 < rs.length := hg.S_lt_iff.1 (by omega)
        rw [hc.count_in hg hlt (by omega) (by omega)]
      · rw [if_neg hs, hc.count_before hg hk1 hb (by omega)]
  rw [hcount]

/-! ## rank -/

theorem rankLoop_spec {p : Nat → Prop} [DecidablePred p] (hp : PartOK E ranks rs n h) (hc : Covers p rs n) {v : Nat} (hv : v ≤ n)
    (f : Nat) (st : RunOps) (k : Nat) (hf : rs.length - k ≤ f) (hm : Mid E rs h st k) (hs : rS rs n k ≤ v) :
    ∃ e r, PsiCoreRLE.rankLoop E n v f st (rS rs n k) (rk rs k) = some (e, r) ∧
      (if v < e then csub r (e - v) else some r) = some (Nat.count p v) := by
  have hg := hp.good
  induction f generalizing st k with
  | zero => have := hm.lt; omega
  | succ f ih =>
    have hkr := hm.lt
    have hlt := hg.lt k hkr
    obtain ⟨st2, n3, n4, n5⟩ := hp.stop hm
    rw [PsiCoreRLE.rankLoop]
    simp only [n3, csub, Option.bind_eq_bind, Option.bind_some, Option.pure_def]
    rw [if_pos (by omega)]
    simp only [Option.bind_some]
    rw [← rk_succ rs n hkr]
    by_cases hev : rE rs n k < v
    · rw [if_pos hev]
      rcases Nat.lt_or_ge (k+1) rs.length with hk2 | hk2
      · obtain ⟨st3, m1, m2⟩ := hp.start (x := rE rs n k) n4 hk2 (by intro _; rfl)
        simp only [m1, Option.bind_some]
        by_cases hsv : rS rs n (k+1) < v
        · rw [if_pos hsv]; exact ih st3 (k+1) (by omega) m2 (by omega)
        · rw [if_neg hsv]
          refine ⟨_, _, rfl, ?_⟩
          rw [if_neg (by omega), hc.count_before hg (k := k+1) (by omega) _ (by omega)]
          intro i hi
          rcases Nat.lt_or_eq_of_le (Nat.lt_succ_iff.1 hi) with h' | h'
          · have := hg.E_le_S_of_lt h'; omega
          · subst h'; omega
      · have hke : k + 1 = rs.length := by omega
        rw [hke] at n4
        obtain ⟨st3, m1, _⟩ := hp.start_end (x := rE rs n k) n4
        simp only [m1, Option.bind_some]
        rw [if_neg (by omega)]
        refine ⟨_, _, rfl, ?_⟩
        rw [if_neg (by omega), hke, hc.count_before hg (k := rs.length) (Nat.le_refl _) _ (by rw [rS_ge (Nat.le_refl _)]; exact hv)]
        intro i hi
        rcases Nat.lt_or_eq_of_le (show i ≤ k by omega) with h' | h'
        · have := hg.E_le_S_of_lt h'; omega
        · subst h'; omega
    · rw [if_neg hev]
      refine ⟨_, _, rfl, ?_⟩
      have hcnt := hc.count_in hg hkr hs (by omega)
      have hrs := rk_succ rs n hkr
      by_cases hve : v < rE rs n k
      · rw [if_pos hve, if_pos (by omega)]; congr 1; omega
      · rw [if_neg hve]; congr 1; omega

theorem rank_spec {p : Nat → Prop} [DecidablePred p] {P : PsiCoreRLE} {c : Nat} (hP : P.parts[c]? = some (E, ranks))
    (hn : P.n = n) (hp : PartOK E ranks rs n h) (hc : Covers p rs n) {v : Nat} (hv : v ≤ n) :
    P.rank c v = some (Nat.count p v) := by
  have hg := hp.good
  obtain ⟨ub, b1, b2, b3, b4, _, _⟩ := hp.block v
  rw [PsiCoreRLE.rank, assertC, if_pos (by simp; omega)]
  simp only [hP, hn, b1, Option.bind_eq_bind, Option.bind_some, Option.pure_def]
  by_cases h0 : ub = 0
  · rw [if_pos h0, hc.count_before hg (k := 0) (by omega) (by intro i hi; omega) (by have := b3 h0; omega), rk_zero]
  · rw [if_pos h0] at b2
    rw [if_neg h0, hp.blockRank b2]
    obtain ⟨st, s1, s2, s3⟩ := hp.init b2
    obtain ⟨st1, n1, n2⟩ := hp.start (x := 0) s2 b2 (by intro hc; exact absurd s3 hc)
    obtain ⟨e, r, l1, l2⟩ := hp.rankLoop_spec hc hv (E.size + 1) st1 _ (by rw [hp.size]; omega) n2 (b4 h0)
    simp only [s1, n1, l1, Option.bind_some]
    exact l2

/-! ## select -/

theorem rk_mono (_ : PartOK E ranks rs n h) {a b : Nat} (hab : a ≤ b) : rk rs a ≤ rk rs b := by
  induction b with
  | zero => rw [show a = 0 by omega]
  | succ b ihb =>
    rcases Nat.lt_or_eq_of_le hab with h' | h'
    · have h1 := ihb (by omega)
      rcases Nat.lt_or_ge b rs.length with hb | hb
      · have := rk_succ rs n hb; omega
      · rw [rk_ge rs hb] at h1; rw [rk_ge rs (show rs.length ≤ b+1 by omega)]; exact h1
    · rw [h']

theorem selectLoop_spec (hp : PartOK E ranks rs n h) {t k1 : Nat} (hk1 : k1 < rs.length) (h1 : rk rs k1 ≤ t) (h2 : t < rk rs (k1+1))
    (f : Nat) (st : RunOps) (k x : Nat) (hk : k ≤ k1) (hf : k1 - k < f) (ha : At E rs h st k) (hx : st.left ≠ 0 → x = rE rs n (k-1)) :
    ∃ st', PsiCoreRLE.selectLoop E n t f st x (rk rs k)
      = some ({ start := rS rs n k1, stop := rE rs n k1, rankEnd := rk rs (k1+1) }, st') ∧ st'.soft = k1 ∧ At E rs h st' (k1+1) := by
  induction f generalizing st k x with
  | zero => omega
  | succ f ih =>
    obtain ⟨st1, n1, n2⟩ := hp.start (x := x) ha (by omega) hx
    obtain ⟨st2, n3, n4, n5⟩ := hp.stop n2
    rw [PsiCoreRLE.selectLoop]
    have hSE := hp.good.S_le_E k
    simp only [n1, n3, csub, if_pos hSE, Option.bind_eq_bind, Option.bind_some, Option.pure_def]
    rw [← rk_succ rs n (by omega)]
    by_cases hc : rk rs (k+1) ≤ t
    · rw [if_pos hc]
      have : k ≠ k1 := by rintro rfl; omega
      exact ih st2 (k+1) _ (by omega) (by omega) n4 (by intro _; rfl)
    · rw [if_neg hc]
      have : k = k1 := by
        by_contra hne
        have := hp.rk_mono (show k + 1 ≤ k1 by omega)
        omega
      subst this
      exact ⟨st2, rfl, n5, n4⟩

/-- the run holding the value of rank `t` (from 0) -/
theorem findRank {t : Nat} (ht : t < rk rs rs.length) : ∃ k, k < rs.length ∧ rk rs k ≤ t ∧ t < rk rs (k+1) := by
  have hex : ∃ k, t < rk rs k := ⟨rs.length, ht⟩
  classical
  have h1 := Nat.find_spec hex
  have h2 := Nat.find_min' hex ht
  have h0 : Nat.find hex ≠ 0 := by intro h0; rw [h0, rk_zero] at h1; omega
  refine ⟨Nat.find hex - 1, by omega, ?_, ?_⟩
  · have := Nat.find_min hex (m := Nat.find hex - 1) (by omega); omega
  · rw [show Nat.find hex - 1 + 1 = Nat.find hex by omega]; exact h1

theorem selectCore_spec (hp : PartOK E ranks rs n h) {t k1 : Nat} (hk1 : k1 < rs.length) (h1 : rk rs k1 ≤ t) (h2 : t < rk rs (k1+1)) :
    ∃ st', PsiCoreRLE.selectCore E ranks n (t+1)
      = some ({ start := rS rs n k1, stop := rE rs n k1, rankEnd := rk rs (k1+1) }, st') ∧ st'.soft = k1 ∧ At E rs h st' (k1+1) := by
  obtain ⟨u1, u2, u3⟩ := upperBound_spec ranks t
  set ub := upperBound ranks t with hub
  obtain ⟨r1, r2⟩ := hp.rlen
  have hle : ub * h ≤ ranks.length * h := Nat.mul_le_mul_right _ u1
  have hub1 : ub * h < rs.length := by omega
  have hstart : ub * h ≤ k1 := by
    by_cases h0 : ub = 0
    · rw [h0]; omega
    · obtain ⟨y, hy, hyt⟩ := u2 (ub-1) (by omega)
      rw [hp.rget ub (by omega) hub1] at hy
      injection hy with hy
      by_contra hc
      have := hp.rk_mono (show k1 + 1 ≤ ub * h by omega)
      omega
  obtain ⟨st, s1, s2, s3⟩ := hp.init hub1
  obtain ⟨st', l1, l2, l3⟩ := hp.selectLoop_spec hk1 h1 h2 (E.size + 1) st _ 0 hstart (by rw [hp.size]; omega) s2
    (by intro hc; exact absurd s3 hc)
  refine ⟨st', ?_, l2, l3⟩
  have hr : (if ub ≠ 0 then ranks.getD (ub - 1) 0 else 0) = rk rs (ub * h) := by
    by_cases h0 : ub = 0
    · rw [if_neg (by omega), h0]; simp [rk_zero]
    · rw [if_pos h0, List.getD_eq_getElem?_getD, hp.rget ub (by omega) hub1]; rfl
  simp only [PsiCoreRLE.selectCore, csub, Option.bind_eq_bind]
  rw [if_pos (by omega)]
  simp only [Option.bind_some, Nat.add_sub_cancel, ← hub, s1, hr, l1]

theorem selValue_spec (hp : PartOK E ranks rs n h) {t k1 : Nat} (hk1 : k1 < rs.length) (h1 : rk rs k1 ≤ t) (h2 : t < rk rs (k1+1)) :
    PsiCoreRLE.selValue { start := rS rs n k1, stop := rE rs n k1, rankEnd := rk rs (k1+1) } (t+1)
      = some (rS rs n k1 + (t - rk rs k1)) := by
  have hlt := hp.good.lt k1 hk1
  have hr := rk_succ rs n hk1
  simp only [PsiCoreRLE.selValue, csub, Option.bind_eq_bind]
  rw [if_pos (by omega)]
  simp only [Option.bind_some]
  rw [if_pos (by omega)]
  simp only [Option.bind_some]
  rw [if_pos (by omega)]
  congr 1
  omega

/-- the value of rank `t` is the position with `p` that has `t` such positions before it -/
theorem value_spec {p : Nat → Prop} [DecidablePred p] (hp : PartOK E ranks rs n h) (hc : Covers p rs n) {t k1 : Nat} (hk1 : k1 < rs.length)
    (h1 : rk rs k1 ≤ t) (h2 : t < rk rs (k1+1)) {v : Nat} (hv : p v) (hvn : v < n) (hcv : Nat.count p v = t) :
    v = rS rs n k1 + (t - rk rs k1) := by
  obtain ⟨k, hk, g1, g2⟩ := (hc v hvn).1 hv
  have hcnt := hc.count_in hp.good hk g1 (by omega)
  have hr := rk_succ rs n hk
  have : k = k1 := by
    rcases Nat.lt_trichotomy k k1 with h' | h' | h'
    · have := hp.rk_mono (show k + 1 ≤ k1 by omega); omega
    · exact h'
    · have := hp.rk_mono (show k1 + 1 ≤ k by omega); omega
  subst this
  omega

theorem select_spec {p : Nat → Prop} [DecidablePred p] {P : PsiCoreRLE} {c : Nat} (hP : P.parts[c]? = some (E, ranks))
    (hn : P.n = n) (hp : PartOK E ranks rs n h) (hc : Covers p rs n) {v : Nat} (hv : v < n) (hpv : p v) :
    P.select c (Nat.count p v + 1) = some v := by
  have htot : Nat.count p v < rk rs rs.length := by
    rw [← hc.count_total hp.good]
    have h1 := Nat.count_succ p v
    rw [if_pos hpv] at h1
    have := Nat.count_monotone p (show v + 1 ≤ n by omega)
    omega
  obtain ⟨k1, hk1, h1, h2⟩ := findRank htot
  obtain ⟨st', l1, _⟩ := hp.selectCore_spec hk1 h1 h2
  simp only [PsiCoreRLE.select, hP, hn, Option.bind_eq_bind, Option.bind_some, l1]
  rw [hp.selValue_spec hk1 h1 h2, ← hp.value_spec hc hk1 h1 h2 hpv hv rfl]

theorem selectReport_spec {p : Nat → Prop} [DecidablePred p] {P : PsiCoreRLE} {c : Nat} (hP : P.parts[c]? = some (E, ranks))
    (hn : P.n = n) (hp : PartOK E ranks rs n h) (hc : Covers p rs n) {v k : Nat} (hk : k < rs.length) (h1 : rS rs n k ≤ v)
    (h2 : v < rE rs n k) : P.selectReport c (Nat.count p v + 1) = some (v, rS rs n k, rE rs n k, k) := by
  have hcnt := hc.count_in hp.good hk h1 (by omega)
  have hr := rk_succ rs n hk
  obtain ⟨st', l1, l2, _⟩ := hp.selectCore_spec hk (t := Nat.count p v) (by omega) (by omega)
  simp only [PsiCoreRLE.selectReport, hP, hn, Option.bind_eq_bind, Option.bind_some, l1]
  rw [hp.selValue_spec hk (by omega) (by omega)]
  simp only [Option.bind_some, Option.pure_def, l2]
  congr 2
  omega

end PartOK
end Sri

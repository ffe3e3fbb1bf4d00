import Verif.Proofs.PsiQueries
/-! # Run queries of PsiCoreRLE on the runs of one symbol (helper lemmas) -/
namespace Sri
set_option autoImplicit false

/-- the part of run `k` inside `[lo,hi)` -/
def pieceOf (rs : List (Nat × Nat)) (n c lo hi k : Nat) : PsiCoreRLE.Piece :=
  { first := max lo (rS rs n k), last := min hi (rE rs n k), c := c, idx := k, isFirst := decide (max lo (rS rs n k) = rS rs n k) }

namespace PartOK
variable {E : EncVector} {ranks : List Nat} {rs : List (Nat × Nat)} {n h : Nat}

/-! ## rankSoftRun -/

theorem softLoop_spec (hp : PartOK E ranks rs n h) {v idx : Nat} (left ptr k : Nat) (hk : k < rs.length) (hs : rS rs n k ≤ v)
    (hptr : ptr = eoff E.dens (flat rs) (2*k+1+1)) (hlay : Lay h rs.length left (idx+1) (k+1)) (hi : idx * h < k + 1)
    (hnext : k + 1 + left < rs.length → v < rS rs n (k+1+left)) :
    ∃ k', k' < rs.length ∧ rS rs n k' ≤ v ∧ (k' + 1 < rs.length → v < rS rs n (k'+1)) ∧
      PsiCoreRLE.softLoop E v left ptr (rS rs n k) (rE rs n k) (k+1) = some (k'+1, rS rs n k', rE rs n k') := by
  have hg := hp.good
  induction left generalizing ptr k with
  | zero => exact ⟨k, hk, hs, fun h' => hnext h', by simp [PsiCoreRLE.softLoop]⟩
  | succ left ih =>
    rw [PsiCoreRLE.softLoop]
    have hk2 : k + 1 < rs.length := by have := hlay.1; omega
    by_cases hev : rE rs n k < v
    · rw [if_pos hev]
      have hcell := hp.enc.cell (2*(k+1)) (by rw [flat_length]; omega)
        (hp.mod_ne (idx := idx+1) (by omega) (by rw [Nat.add_sub_cancel]; exact hi) (by have := hlay.1; omega))
      rw [hg.delta_gap hp.nlt hk2 (by omega), Nat.add_sub_cancel] at hcell
      have hcell2 := hp.enc.cell (2*(k+1)+1) (by rw [flat_length]; omega) (hp.mod_ne_odd (k+1))
      rw [hg.delta_len hp.nlt hk2] at hcell2
      have hgap := hg.gap k hk2
      have hlt := hg.lt (k+1) hk2
      rw [show 2 * k + 1 + 1 = 2 * (k+1) by omega] at hptr
      simp only [hptr, hcell, Option.bind_eq_bind, Option.bind_some]
      rw [show rE rs n k + (rS rs n (k + 1) - rE rs n k) = rS rs n (k+1) by omega]
      by_cases hsv : rS rs n (k+1) ≤ v
      · rw [if_pos hsv, hcell2]
        simp only [Option.bind_some]
        rw [show rS rs n (k + 1) + (rE rs n (k + 1) - rS rs n (k + 1)) = rE rs n (k+1) by omega]
        apply ih _ (k+1) hk2 hsv rfl
        · exact ⟨by have := hlay.1; omega, fun _ => ⟨by omega, by rw [Nat.add_sub_cancel]; omega⟩⟩
        · omega
        · intro h'
          rw [show k + 1 + 1 + left = k + 1 + (left + 1) by omega] at h' ⊢
          exact hnext h'
      · rw [if_neg hsv]
        exact ⟨k, hk, hs, fun _ => by omega, rfl⟩
    · rw [if_neg hev]
      exact ⟨k, hk, hs, fun h' => by have := hg.gap k h'; omega, rfl⟩

theorem rankSoftRunC_spec {P : PsiCoreRLE} {c : Nat} (hP : P.parts[c]? = some (E, ranks)) (hn : P.n = n) (hp : PartOK E ranks rs n h)
    (v : Nat) : ∃ m, m ≤ rs.length ∧ (∀ k, k < rs.length → (rS rs n k ≤ v ↔ k < m)) ∧
      P.rankSoftRunC c v = some (m, if 0 < m ∧ v < rE rs n (m-1) then rS rs n (m-1) else n) := by
  have hg := hp.good
  have hh := hp.hpos
  obtain ⟨ub, b1, b2, b3, b4, b5, _⟩ := hp.block v
  simp only [PsiCoreRLE.rankSoftRunC, hP, hn, b1, Option.bind_eq_bind, Option.bind_some, Option.pure_def]
  by_cases h0 : ub = 0
  · rw [if_pos h0]
    refine ⟨0, by omega, ?_, by simp⟩
    intro k hk
    have := b3 h0
    have := hg.S_mono (Nat.zero_le k)
    omega
  · rw [if_neg h0]
    rw [if_pos h0] at b2
    have b4 := b4 h0
    set idx := ub - 1 with hidx
    obtain ⟨sp1, sp2⟩ := hp.enc.sample idx (by rw [hp.half, flat_length, show idx * (2 * h) = 2 * (idx * h) by ring]; omega)
    rw [hp.half, show idx * (2 * h) = 2 * (idx * h) by ring, flat_even rs n b2] at sp1
    rw [hp.half, show idx * (2 * h) = 2 * (idx * h) by ring] at sp2
    have hruns : idx * E.dens / 2 = idx * h := by rw [hp.half, show idx * (2 * h) = 2 * (idx * h) by ring]; omega
    have fin : ∀ k, k < rs.length → rS rs n k ≤ v → (k + 1 < rs.length → v < rS rs n (k+1)) →
        ∀ j, j < rs.length → (rS rs n j ≤ v ↔ j < k+1) := by
      intro k hk h1 h2 j hj
      constructor
      · intro hjv
        by_contra hc
        have := h2 (by omega)
        have := hg.S_mono (show k + 1 ≤ j by omega)
        omega
      · intro hjk
        have := hg.S_mono (show j ≤ k by omega)
        omega
    simp only [sp1, Option.bind_some, hruns]
    by_cases hsv : rS rs n (idx * h) = v
    · rw [if_pos hsv]
      have hlt := hg.lt _ b2
      refine ⟨idx * h + 1, by omega, fin _ b2 (by omega) ?_, ?_⟩
      · intro h'; have := hg.gap _ h'; omega
      · rw [if_pos ⟨by omega, by rw [Nat.add_sub_cancel]; omega⟩, Nat.add_sub_cancel]
    · rw [if_neg hsv, sp2]
      have hcell := hp.enc.cell (2*(idx*h)+1) (by rw [flat_length]; omega) (hp.mod_ne_odd (idx*h))
      rw [hg.delta_len hp.nlt b2, eoff, if_pos (by rw [hp.half, Nat.mul_mod_mul_left, Nat.mul_mod_left]), Nat.add_zero] at hcell
      have hlt := hg.lt _ b2
      rw [show eoff (2*h) (flat rs) (2 * (idx * h)) = eoff E.dens (flat rs) (2 * (idx * h)) by rw [hp.half]]
      simp only [hcell, Option.bind_some]
      rw [show rS rs n (idx * h) + (rE rs n (idx * h) - rS rs n (idx * h)) = rE rs n (idx * h) by omega]
      have hrest : csub E.size (idx * E.dens) = some (2 * (rs.length - idx * h)) := by
        rw [csub, hp.size, hp.half, show idx * (2 * h) = 2 * (idx * h) by ring, if_pos (by omega)]; congr 1; omega
      have hleft : csub (min E.dens (2 * (rs.length - idx * h)) / 2) 1 = some (min h (rs.length - idx * h) - 1) := by
        rw [csub, hp.half, if_pos (by omega)]; congr 1; omega
      simp only [hrest, hleft, Option.bind_some]
      have hsucc : (idx + 1) * h = idx * h + h := Nat.succ_mul _ _
      obtain ⟨k', g1, g2, g3, g4⟩ := hp.softLoop_spec (v := v) (idx := idx) (min h (rs.length - idx * h) - 1) _ (idx * h) b2 b4 rfl
        ⟨by omega, fun _ => ⟨by omega, by rw [Nat.add_sub_cancel]; omega⟩⟩ (by omega)
        (by
          intro h'
          have he : idx * h + 1 + (min h (rs.length - idx * h) - 1) = ub * h := by
            rw [show ub = idx + 1 by omega, hsucc]; omega
          rw [he] at h' ⊢
          exact b5 h')
      simp only [g4, Option.bind_some]
      refine ⟨k'+1, by omega, fin k' g1 g2 g3, ?_⟩
      rw [Nat.add_sub_cancel]
      congr 2
      by_cases hve : v < rE rs n k'
      · rw [if_pos hve, if_pos ⟨by omega, hve⟩]
      · rw [if_neg hve, if_neg (fun h' => hve h'.2)]

/-! ## splitting a range in runs -/

/-- the start of run `j` has been read (or there are no more runs) -/
def Ready (E : EncVector) (rs : List (Nat × Nat)) (h : Nat) (st : RunOps) (j : Nat) : Prop :=
  st.soft = j ∧ (Mid E rs h st j ∨ (j = rs.length ∧ At E rs h st rs.length))

theorem ready_start (hp : PartOK E ranks rs n h) {st : RunOps} {k x : Nat} (ha : At E rs h st k)
    (hx : st.left ≠ 0 → x = rE rs n (k-1)) : ∃ st', RunOps.nextStart E n st x = some (rS rs n k, st') ∧ Ready E rs h st' k := by
  rcases Nat.lt_or_ge k rs.length with hk | hk
  · obtain ⟨st', h1, h2⟩ := hp.start ha hk hx
    exact ⟨st', h1, h2.soft, Or.inl h2⟩
  · have hke : k = rs.length := by have := ha.le; omega
    subst hke
    obtain ⟨st', h1, h2, _, h3⟩ := hp.start_end (x := x) ha
    exact ⟨st', by rw [rS_ge (Nat.le_refl _)]; exact h1, h3, Or.inr ⟨rfl, h2⟩⟩

theorem ready_stop (hp : PartOK E ranks rs n h) {st : RunOps} {j : Nat} (hr : Ready E rs h st j) :
    ∃ st', RunOps.nextEnd E n st (rS rs n j) = some (rE rs n j, st') ∧ At E rs h st' (min (j+1) rs.length) ∧ st'.soft = j := by
  obtain ⟨h1, h2 | ⟨h2, h3⟩⟩ := hr
  · obtain ⟨st', a1, a2, a3⟩ := hp.stop h2
    exact ⟨st', a1, by rw [Nat.min_eq_left h2.lt]; exact a2, a3⟩
  · subst h2
    rw [rS_ge (Nat.le_refl _), rE_ge (Nat.le_refl _)]
    exact ⟨st, stop_end st, by rw [Nat.min_eq_right (by omega)]; exact h3, h1⟩

theorem rS_min (k : Nat) : rS rs n (min k rs.length) = rS rs n k := by
  rcases Nat.lt_or_ge k rs.length with hk | hk
  · rw [Nat.min_eq_left (by omega)]
  · rw [Nat.min_eq_right hk, rS_ge hk, rS_ge (Nat.le_refl _)]

/-- from the start of run `j` to the start of the run after it -/
theorem ready_next (hp : PartOK E ranks rs n h) {st : RunOps} {j : Nat} (hr : Ready E rs h st j) :
    ∃ st1 st2, RunOps.nextEnd E n st (rS rs n j) = some (rE rs n j, st1) ∧
      RunOps.nextStart E n st1 (rE rs n j) = some (rS rs n (j+1), st2) ∧ Ready E rs h st2 (min (j+1) rs.length) := by
  obtain ⟨st1, a1, a2, a3⟩ := hp.ready_stop hr
  obtain ⟨st2, b1, b2⟩ := hp.ready_start (x := rE rs n j) a2 (by
    intro hl
    rcases Nat.lt_or_ge j rs.length with hj | hj
    · rw [Nat.min_eq_left (by omega), Nat.add_sub_cancel]
    · exfalso
      rw [Nat.min_eq_right (by omega)] at a2
      have := a2.lay.1; omega)
  rw [rS_min] at b1
  exact ⟨st1, st2, a1, b1, b2⟩

theorem splitSkip_spec (hp : PartOK E ranks rs n h) {w k1 : Nat} (hk1 : k1 ≤ rs.length) (hw : w < rE rs n k1)
    (hb : ∀ j, j < k1 → rE rs n j ≤ w) (f : Nat) (st : RunOps) (k : Nat) (hk : k ≤ k1) (hf : k1 - k < f)
    (hr : Ready E rs h st (min (k+1) rs.length)) :
    ∃ st', PsiCoreRLE.splitSkip E n w f st (rS rs n k) (rE rs n k) (rS rs n (k+1))
      = some (rS rs n k1, rE rs n k1, rS rs n (k1+1), st') ∧ Ready E rs h st' (min (k1+1) rs.length) := by
  induction f generalizing st k with
  | zero => omega
  | succ f ih =>
    rw [PsiCoreRLE.splitSkip]
    by_cases hc : rE rs n k ≤ w
    · have hlt : k < k1 := by
        rcases Nat.lt_or_eq_of_le hk with h' | h'
        · exact h'
        · subst h'; omega
      rw [Nat.min_eq_left (by omega)] at hr
      obtain ⟨st1, st2, n1, n2, n3⟩ := hp.ready_next hr
      rw [if_pos hc]
      simp only [Option.bind_eq_bind, Option.bind_some, n1, n2]
      exact ih st2 (k+1) (by omega) (by omega) n3
    · have heq : k = k1 := by
        rcases Nat.lt_or_eq_of_le hk with h' | h'
        · exact absurd (hb k h') hc
        · exact h'
      subst heq
      rw [if_neg hc]
      exact ⟨st, rfl, hr⟩

theorem splitReport_spec (hp : PartOK E ranks rs n h) {c lo hi k2 : Nat} (hlh : lo < hi) (hhi : hi ≤ n) (hk2 : k2 ≤ rs.length)
    (hk2' : ∀ k, k < rs.length → (rS rs n k < hi ↔ k < k2)) (f : Nat) (st : RunOps) (k : Nat) (hk : k ≤ rs.length)
    (hf : rs.length - k < f) (hlo : lo < rE rs n k) (hr : Ready E rs h st (min (k+1) rs.length)) :
    PsiCoreRLE.splitReport E n hi c f st (max lo (rS rs n k)) (rS rs n k) (rE rs n k) (rS rs n (k+1))
      = some ((List.range' k (k2 - k)).map (pieceOf rs n c lo hi)) := by
  have hg := hp.good
  induction f generalizing st k with
  | zero => omega
  | succ f ih =>
    rw [PsiCoreRLE.splitReport]
    by_cases hnx : rS rs n (k+1) < hi
    · have hkr : k + 1 < rs.length := hg.S_lt_iff.1 (by omega)
      rw [Nat.min_eq_left (by omega)] at hr
      have hkk := (hk2' (k+1) hkr).1 hnx
      obtain ⟨st1, st2, n1, n2, n3⟩ := hp.ready_next hr
      have hES := hg.gap k hkr
      have hlt := hg.lt (k+1) hkr
      have hmax : rS rs n (k+1) = max lo (rS rs n (k+1)) := by omega
      have hrec := ih st2 (k+1) (by omega) (by omega) (by omega) n3
      rw [← hmax] at hrec
      rw [if_pos hnx]
      simp only [csub, hr.1]
      rw [if_pos (by omega)]
      simp only [n1, n2, Option.bind_eq_bind, Option.bind_some, hrec, Option.pure_def, Nat.add_sub_cancel]
      rw [show k2 - k = (k2 - (k+1)) + 1 by omega, List.range'_succ, List.map_cons]
      congr 2
      simp only [pieceOf]
      congr 1
      omega
    · rw [if_neg hnx]
      have hk2k : k2 ≤ k + 1 := by
        by_contra hc
        exact hnx ((hk2' (k+1) (by omega)).2 (by omega))
      by_cases hfin : max lo (rS rs n k) < min hi (rE rs n k)
      · have hkr : k < rs.length := hg.S_lt_iff.1 (by omega)
        have hkk := (hk2' k hkr).1 (by omega)
        rw [if_pos hfin]
        simp only [csub, hr.1]
        rw [if_pos (by omega), show k2 - k = 1 by omega, Nat.min_eq_left (by omega)]
        rfl
      · rw [if_neg hfin, show k2 - k = 0 by
          by_contra hc
          have hkr : k < rs.length := by omega
          have := (hk2' k hkr).2 (by omega)
          have := hg.lt k hkr
          omega]
        rfl

/-- the first run that starts at or after `hi` -/
theorem findStart (hg : GoodRuns rs n) (hi : Nat) : ∃ k2, k2 ≤ rs.length ∧ ∀ k, k < rs.length → (rS rs n k < hi ↔ k < k2) := by
  refine ⟨Nat.count (fun k => rS rs n k < hi) rs.length, Nat.count_le _, fun k hk => ?_⟩
  exact down_closed_iff _ (fun i j hij _ h' => Nat.lt_of_le_of_lt (hg.S_mono hij) h') hk

theorem splitInRunsC_spec {P : PsiCoreRLE} {c : Nat} (hP : P.parts[c]? = some (E, ranks)) (hn : P.n = n) (hp : PartOK E ranks rs n h)
    {lo hi k1 k2 : Nat} (hlh : lo < hi) (hhi : hi ≤ n) (hk1 : k1 ≤ rs.length) (hlo : lo < rE rs n k1) (hb : ∀ j, j < k1 → rE rs n j ≤ lo)
    (hk2 : k2 ≤ rs.length) (hk2' : ∀ k, k < rs.length → (rS rs n k < hi ↔ k < k2)) :
    P.splitInRunsC c lo hi = some ((List.range' k1 (k2 - k1)).map (pieceOf rs n c lo hi)) := by
  have hg := hp.good
  obtain ⟨ub, b1, b2, _, _, _, b6⟩ := hp.block lo
  obtain ⟨st, s1, s2, s3⟩ := hp.init b2
  obtain ⟨st1, n1, n2⟩ := hp.ready_start (x := 0) s2 (by intro hc; exact absurd s3 hc)
  obtain ⟨st2, st3, m1, m2, m3⟩ := hp.ready_next n2
  obtain ⟨st4, l1, l2⟩ := hp.splitSkip_spec hk1 hlo hb (E.size + 2) st3 _ (b6 k1 hlo) (by rw [hp.size]; omega) m3
  have l3 := hp.splitReport_spec (c := c) hlh hhi hk2 hk2' (E.size + 2) st4 k1 hk1 (by rw [hp.size]; omega) hlo l2
  simp only [PsiCoreRLE.splitInRunsC, hP, hn, b1, s1, n1, m1, m2, l1, l3, Option.bind_eq_bind, Option.bind_some]

/-! ## forward runs -/

theorem forwardLoop_spec (hp : PartOK E ranks rs n h) {c lo t2 k2 : Nat} (hk2 : k2 < rs.length) (h1 : rk rs k2 ≤ t2)
    (h2 : t2 < rk rs (k2+1)) (f : Nat) (st : RunOps) (k : Nat) (hk : k ≤ k2) (hf : k2 - k < f) (hlo : lo < rE rs n k)
    (ha : At E rs h st (k+1)) (hs : st.soft = k) :
    PsiCoreRLE.forwardLoop E n (t2+1) c f st (max lo (rS rs n k)) { start := rS rs n k, stop := rE rs n k, rankEnd := rk rs (k+1) }
      = some ((List.range' k (k2 + 1 - k)).map (pieceOf rs n c lo (rS rs n k2 + (t2 - rk rs k2) + 1))) := by
  have hg := hp.good
  have hr2 := rk_succ rs n hk2
  have hlt2 := hg.lt k2 hk2
  induction f generalizing st k with
  | zero => omega
  | succ f ih =>
    rw [PsiCoreRLE.forwardLoop]
    by_cases hc : rk rs (k+1) < t2 + 1
    · have hkk : k < k2 := by
        rcases Nat.lt_or_eq_of_le hk with h' | h'
        · exact h'
        · subst h'; omega
      obtain ⟨st1, n1, n2⟩ := hp.start (x := rE rs n k) ha (by omega) (by intro _; rfl)
      obtain ⟨st2, n3, n4, n5⟩ := hp.stop n2
      have hlt := hg.lt (k+1) (by omega)
      have hgap := hg.gap k (by omega)
      have hmax : rS rs n (k+1) = max lo (rS rs n (k+1)) := by omega
      have hrec := ih st2 (k+1) (by omega) (by omega) (by omega) n4 n5
      rw [← hmax] at hrec
      rw [if_pos hc]
      simp only [n1, n3, csub, Option.bind_eq_bind, Option.bind_some, Option.pure_def]
      rw [if_pos (by omega)]
      simp only [Option.bind_some]
      rw [← rk_succ rs n (by omega), hrec]
      simp only [Option.bind_some, hs]
      rw [show k2 + 1 - k = (k2 + 1 - (k+1)) + 1 by omega, List.range'_succ, List.map_cons]
      congr 2
      simp only [pieceOf]
      congr 1
      have := hg.E_le_S_of_lt hkk
      omega
    · rw [if_neg hc]
      have heq : k = k2 := by
        by_contra hne
        have := hp.rk_mono (show k + 1 ≤ k2 by omega)
        omega
      subst heq
      rw [hp.selValue_spec hk2 h1 h2]
      simp only [Option.bind_eq_bind, Option.bind_some, Option.pure_def, hs]
      rw [show k + 1 - k = 1 by omega]
      simp only [List.range'_one, List.map_cons, List.map_nil, pieceOf]
      congr 3
      omega

theorem computeForwardRuns_spec {P : PsiCoreRLE} {c : Nat} (hP : P.parts[c]? = some (E, ranks)) (hn : P.n = n)
    (hp : PartOK E ranks rs n h) {t1 t2 k1 k2 : Nat} (ht : t1 ≤ t2) (hk1 : k1 < rs.length) (g1 : rk rs k1 ≤ t1) (g2 : t1 < rk rs (k1+1))
    (hk2 : k2 < rs.length) (h1 : rk rs k2 ≤ t2) (h2 : t2 < rk rs (k2+1)) :
    P.computeForwardRuns c (t1+1) (t2+2) = some ((List.range' k1 (k2 + 1 - k1)).map
      (pieceOf rs n c (rS rs n k1 + (t1 - rk rs k1)) (rS rs n k2 + (t2 - rk rs k2) + 1))) := by
  have hr1 := rk_succ rs n hk1
  have hlt1 := hp.good.lt k1 hk1
  obtain ⟨st, s1, s2, s3⟩ := hp.selectCore_spec hk1 g1 g2
  have hle : k1 ≤ k2 := by
    by_contra hc
    have := hp.rk_mono (show k2 + 1 ≤ k1 by omega)
    omega
  have hl := hp.forwardLoop_spec (c := c) (lo := rS rs n k1 + (t1 - rk rs k1)) hk2 h1 h2 (E.size + 1) st k1 hle (by rw [hp.size]; omega)
    (by omega) s3 s2
  rw [Nat.max_eq_left (by omega)] at hl
  simp only [PsiCoreRLE.computeForwardRuns, hP, hn, s1, hp.selValue_spec hk1 g1 g2, Option.bind_eq_bind, Option.bind_some, csub]
  rw [if_pos (by omega)]
  simp only [Option.bind_some]
  rw [show t2 + 2 - 1 = t2 + 1 by omega, hl]

/-! ## traverse -/

theorem traverseLoop_spec (hp : PartOK E ranks rs n h) (f : Nat) (st : RunOps) (k : Nat) (hk : k ≤ rs.length) (hf : rs.length - k < f)
    (ha : At E rs h st (min (k+1) rs.length)) :
    PsiCoreRLE.traverseLoop E n f st (rS rs n k) (rE rs n k) = some (rs.drop k) := by
  have hg := hp.good
  induction f generalizing st k with
  | zero => omega
  | succ f ih =>
    rw [PsiCoreRLE.traverseLoop]
    by_cases hc : rS rs n k < n
    · have hkr := hg.S_lt_iff.1 hc
      rw [Nat.min_eq_left (by omega)] at ha
      obtain ⟨st1, st2, n1, n2, n3, n4, n5⟩ := hp.next (x := rE rs n k) ha (by intro _; rfl)
      rw [if_pos hc]
      simp only [n1, n3, Option.bind_eq_bind, Option.bind_some, ih st2 (k+1) (by omega) (by omega) n4, Option.pure_def]
      rw [List.drop_eq_getElem_cons hkr]
      simp [rS, rE, hkr]
    · rw [if_neg hc]
      have : rs.length ≤ k := by
        by_contra h'
        exact hc (hg.S_lt_iff.2 (by omega))
      rw [List.drop_eq_nil_of_le this]; rfl

theorem traverse_spec {P : PsiCoreRLE} {c : Nat} (hP : P.parts[c]? = some (E, ranks)) (hn : P.n = n) (hp : PartOK E ranks rs n h) :
    P.traverse c = some rs := by
  obtain ⟨st, s1, s2, s3⟩ := hp.init (idx := 0) (by have := hp.ne; omega)
  obtain ⟨st1, st2, n1, n2, n3, n4, n5⟩ := hp.next (x := 0) s2 (by intro hc; exact absurd s3 hc)
  rw [Nat.zero_mul] at n1 n3 n4
  have := hp.traverseLoop_spec (E.size + 1) st2 0 (by omega) (by rw [hp.size]; omega) n4
  simp only [PsiCoreRLE.traverse, hP, hn, s1, n1, n3, this, Option.bind_eq_bind, Option.bind_some, List.drop_zero]

theorem countRuns_spec {P : PsiCoreRLE} {c : Nat} (hP : P.parts[c]? = some (E, ranks)) (hp : PartOK E ranks rs n h) :
    P.countRuns c = some rs.length := by
  rw [PsiCoreRLE.countRuns, hP]; simp [hp.size]

end PartOK
end Sri

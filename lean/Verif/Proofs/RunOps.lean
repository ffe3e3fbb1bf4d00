import Verif.Model.Psi
import Verif.Proofs.EncVector
import Verif.Proofs.SATheory
/-! # Iterating over the runs of one symbol (helper lemmas) -/
namespace Sri
set_option autoImplicit false

/-- start of run `k` (`n` past the last run) -/
def rS (rs : List (Nat × Nat)) (n k : Nat) : Nat := (rs.getD k (n, n)).1

/-- end of run `k` (`n` past the last run) -/
def rE (rs : List (Nat × Nat)) (n k : Nat) : Nat := (rs.getD k (n, n)).2

/-- number of values in the first `k` runs -/
def rk (rs : List (Nat × Nat)) (k : Nat) : Nat := ((rs.take k).map (fun q => q.2 - q.1)).sum

/-- the runs as the alternating list of starts and ends -/
def flat (rs : List (Nat × Nat)) : List Nat := rs.flatMap (fun q => [q.1, q.2])

/-- increasing, separated, non-empty runs inside `[0,n)` -/
structure GoodRuns (rs : List (Nat × Nat)) (n : Nat) : Prop where
  lt : ∀ k, k < rs.length → rS rs n k < rE rs n k ∧ rE rs n k ≤ n
  gap : ∀ k, k + 1 < rs.length → rE rs n k < rS rs n (k+1)

theorem rS_ge {rs : List (Nat × Nat)} {n k : Nat} (h : rs.length ≤ k) : rS rs n k = n := by
  simp [rS, List.getElem?_eq_none h]

theorem rE_ge {rs : List (Nat × Nat)} {n k : Nat} (h : rs.length ≤ k) : rE rs n k = n := by
  simp [rE, List.getElem?_eq_none h]

theorem flat_length (rs : List (Nat × Nat)) : (flat rs).length = 2 * rs.length := by
  induction rs with
  | nil => rfl
  | cons q rs ih => simp only [flat, List.flatMap_cons, List.length_append, List.length_cons, List.length_nil] at ih ⊢; omega

theorem flat_even (rs : List (Nat × Nat)) (n : Nat) {k : Nat} (hk : k < rs.length) : (flat rs).getD (2*k) 0 = rS rs n k := by
  induction rs generalizing k with
  | nil => simp at hk
  | cons q rs ih =>
    cases k with
    | zero => simp [flat, rS]
    | succ k =>
      have := ih (k := k) (by simpa using hk)
      rw [show 2 * (k+1) = 2 * k + 1 + 1 by omega]
      simpa [flat, rS] using this

theorem flat_odd (rs : List (Nat × Nat)) (n : Nat) {k : Nat} (hk : k < rs.length) : (flat rs).getD (2*k+1) 0 = rE rs n k := by
  induction rs generalizing k with
  | nil => simp at hk
  | cons q rs ih =>
    cases k with
    | zero => simp [flat, rE]
    | succ k =>
      have := ih (k := k) (by simpa using hk)
      rw [show 2 * (k+1) + 1 = 2 * k + 1 + 1 + 1 by omega]
      simpa [flat, rE] using this

theorem rk_zero (rs : List (Nat × Nat)) : rk rs 0 = 0 := by simp [rk]

theorem rk_succ (rs : List (Nat × Nat)) (n : Nat) {k : Nat} (hk : k < rs.length) : rk rs (k+1) = rk rs k + (rE rs n k - rS rs n k) := by
  rw [rk, rk, List.take_succ_eq_append_getElem hk, List.map_append, List.sum_append]
  congr 1
  simp [rE, rS, hk]

theorem rk_ge (rs : List (Nat × Nat)) {k : Nat} (hk : rs.length ≤ k) : rk rs k = rk rs rs.length := by
  rw [rk, rk, List.take_of_length_le hk, List.take_length]

theorem wsub_of_le {a b : Nat} (h : b ≤ a) (ha : a < W64) : wsub a b = a - b := by
  rw [wsub, show a + W64 - b = (a - b) + W64 by omega, Nat.add_mod_right, Nat.mod_eq_of_lt (by omega)]

namespace GoodRuns
variable {rs : List (Nat × Nat)} {n : Nat}

theorem S_le (h : GoodRuns rs n) (k : Nat) : rS rs n k ≤ n := by
  rcases Nat.lt_or_ge k rs.length with hk | hk
  · have := h.lt k hk; omega
  · rw [rS_ge hk]

theorem E_le (h : GoodRuns rs n) (k : Nat) : rE rs n k ≤ n := by
  rcases Nat.lt_or_ge k rs.length with hk | hk
  · exact (h.lt k hk).2
  · rw [rE_ge hk]

theorem S_le_E (h : GoodRuns rs n) (k : Nat) : rS rs n k ≤ rE rs n k := by
  rcases Nat.lt_or_ge k rs.length with hk | hk
  · have := h.lt k hk; omega
  · rw [rS_ge hk, rE_ge hk]

theorem E_le_S (h : GoodRuns rs n) (k : Nat) : rE rs n k ≤ rS rs n (k+1) := by
  rcases Nat.lt_or_ge (k+1) rs.length with hk | hk
  · have := h.gap k hk; omega
  · rw [rS_ge hk]; exact h.E_le k

theorem E_le_S_of_lt (h : GoodRuns rs n) {j k : Nat} (hjk : j < k) : rE rs n j ≤ rS rs n k := by
  induction k with
  | zero => omega
  | succ k ih =>
    rcases Nat.lt_or_ge j k with hlt | hge
    · have h1 := ih hlt; have h2 := h.S_le_E k; have h3 := h.E_le_S k; omega
    · rw [show j = k by omega]; exact h.E_le_S k

theorem S_mono (h : GoodRuns rs n) {j k : Nat} (hjk : j ≤ k) : rS rs n j ≤ rS rs n k := by
  rcases Nat.lt_or_eq_of_le hjk with hlt | rfl
  · exact Nat.le_trans (h.S_le_E j) (h.E_le_S_of_lt hlt)
  · exact Nat.le_refl _

theorem S_lt_iff (h : GoodRuns rs n) {k : Nat} : rS rs n k < n ↔ k < rs.length := by
  constructor
  · intro hk
    by_contra hc
    rw [rS_ge (by omega)] at hk; omega
  · intro hk; have := h.lt k hk; omega

theorem delta_len (h : GoodRuns rs n) (hn : n < W64) {k : Nat} (hk : k < rs.length) :
    edelta (flat rs) (2*k+1) = rE rs n k - rS rs n k := by
  have := h.lt k hk
  rw [edelta, flat_odd rs n hk, show 2 * k + 1 - 1 = 2 * k by omega, flat_even rs n hk, wsub_of_le (by omega) (by omega)]

theorem delta_gap (h : GoodRuns rs n) (hn : n < W64) {k : Nat} (hk : k < rs.length) (h0 : 0 < k) :
    edelta (flat rs) (2*k) = rS rs n k - rE rs n (k-1) := by
  have := h.lt k hk
  have h2 := h.gap (k-1) (by omega)
  rw [show k - 1 + 1 = k by omega] at h2
  rw [edelta, flat_even rs n hk, show 2 * k - 1 = 2 * (k-1) + 1 by omega, flat_odd rs n (by omega), wsub_of_le (by omega) (by omega)]

/-- the run that contains `v` or is the first after it -/
theorem find (_ : GoodRuns rs n) {v : Nat} (hv : v < n) :
    ∃ k, k ≤ rs.length ∧ v < rE rs n k ∧ ∀ j, j < k → rE rs n j ≤ v := by
  have hex : ∃ k, v < rE rs n k := ⟨rs.length, by rw [rE_ge (Nat.le_refl _)]; exact hv⟩
  classical
  refine ⟨Nat.find hex, ?_, Nat.find_spec hex, fun j hj => ?_⟩
  · exact Nat.find_min' hex (by rw [rE_ge (Nat.le_refl _)]; exact hv)
  · have := Nat.find_min hex hj; omega

end GoodRuns

/-! ## counting -/

theorem count_none {p : Nat → Prop} [DecidablePred p] {a b : Nat} (hab : a ≤ b) (h : ∀ i, a ≤ i → i < b → ¬ p i) :
    Nat.count p b = Nat.count p a := by
  induction b with
  | zero => rw [show a = 0 by omega]
  | succ b ih =>
    rcases Nat.lt_or_eq_of_le hab with hlt | rfl
    · rw [Nat.count_succ, if_neg (h b (by omega) (by omega)), ih (by omega) (fun i h1 h2 => h i h1 (by omega))]; rfl
    · rfl

theorem count_all {p : Nat → Prop} [DecidablePred p] {a b : Nat} (hab : a ≤ b) (h : ∀ i, a ≤ i → i < b → p i) :
    Nat.count p b = Nat.count p a + (b - a) := by
  induction b with
  | zero => rw [show a = 0 by omega]; simp
  | succ b ih =>
    rcases Nat.lt_or_eq_of_le hab with hlt | rfl
    · rw [Nat.count_succ, if_pos (h b (by omega) (by omega)), ih (by omega) (fun i h1 h2 => h i h1 (by omega))]; omega
    · simp

/-- the runs cover exactly the positions below `n` satisfying `p` -/
def Covers (p : Nat → Prop) (rs : List (Nat × Nat)) (n : Nat) : Prop :=
  ∀ j, j < n → (p j ↔ ∃ k, k < rs.length ∧ rS rs n k ≤ j ∧ j < rE rs n k)

section
variable {p : Nat → Prop} [DecidablePred p] {rs : List (Nat × Nat)} {n : Nat}

omit [DecidablePred p] in
theorem Covers.inside (hc : Covers p rs n) (h : GoodRuns rs n) {k j : Nat} (hk : k < rs.length) (h1 : rS rs n k ≤ j)
    (h2 : j < rE rs n k) : p j :=
  (hc j (by have := h.E_le k; omega)).2 ⟨k, hk, h1, h2⟩

omit [DecidablePred p] in
theorem Covers.outside (hc : Covers p rs n) (h : GoodRuns rs n) {k j : Nat} (h1 : ∀ i, i < k → rE rs n i ≤ j)
    (h2 : j < rS rs n k) : ¬ p j := by
  intro hp
  obtain ⟨m, hm, h3, h4⟩ := (hc j (by have := h.S_le k; omega)).1 hp
  rcases Nat.lt_or_ge m k with hlt | hge
  · have := h1 m hlt; omega
  · have := h.S_mono hge; omega

theorem Covers.count_S (hc : Covers p rs n) (h : GoodRuns rs n) {k : Nat} (hk : k ≤ rs.length) :
    Nat.count p (rS rs n k) = rk rs k := by
  induction k with
  | zero =>
    rw [rk_zero, count_none (Nat.zero_le _) (fun i _ h2 => hc.outside h (k := 0) (by intro i hi; omega) h2)]
    simp
  | succ k ih =>
    rw [count_none (h.E_le_S k) (fun i h1 h2 => hc.outside h (k := k+1) (fun m hm => ?_) h2),
      count_all (h.S_le_E k) (fun i h1 h2 => hc.inside h (by omega) h1 h2), ih (by omega), rk_succ rs n (by omega)]
    rcases Nat.lt_or_ge m k with hlt | hge
    · have h3 := h.E_le_S_of_lt hlt; have h4 := h.S_le_E k; omega
    · rw [show m = k by omega]; exact h1

theorem Covers.count_in (hc : Covers p rs n) (h : GoodRuns rs n) {k v : Nat} (hk : k < rs.length) (h1 : rS rs n k ≤ v)
    (h2 : v ≤ rE rs n k) : Nat.count p v = rk rs k + (v - rS rs n k) := by
  rw [count_all h1 (fun i h3 h4 => hc.inside h hk h3 (by omega)), hc.count_S h (by omega)]

theorem Covers.count_before (hc : Covers p rs n) (h : GoodRuns rs n) {k v : Nat} (hk : k ≤ rs.length) (h1 : ∀ i, i < k → rE rs n i ≤ v)
    (h2 : v ≤ rS rs n k) : Nat.count p v = rk rs k := by
  rw [← hc.count_S h hk, count_none h2 (fun i h3 h4 => hc.outside h (k := k) (fun m hm => ?_) h4)]
  have := h1 m hm; omega

theorem Covers.count_total (hc : Covers p rs n) (h : GoodRuns rs n) : Nat.count p n = rk rs rs.length := by
  rw [← hc.count_S h (Nat.le_refl _), rS_ge (Nat.le_refl _)]

end

/-! ## the encoded runs of one symbol -/

/-- an encoded run list with the ranks of its samples -/
structure PartOK (E : EncVector) (ranks : List Nat) (rs : List (Nat × Nat)) (n h : Nat) : Prop where
  enc : EncRep E (flat rs)
  half : E.dens = 2 * h
  good : GoodRuns rs n
  ne : 0 < rs.length
  nlt : n < W64
  rlen : ranks.length * h < rs.length ∧ rs.length ≤ (ranks.length + 1) * h
  rget : ∀ b, 1 ≤ b → b * h < rs.length → ranks[b-1]? = some (rk rs (b * h))

/-- counters of the iterator before run `k`: `left` runs remain in the current block -/
def Lay (h r left idx k : Nat) : Prop :=
  k + left = min (idx * h) r ∧ (left ≠ 0 → 1 ≤ idx ∧ (idx - 1) * h < k)

/-- the iterator is about to report run `k` -/
structure At (E : EncVector) (rs : List (Nat × Nat)) (h : Nat) (st : RunOps) (k : Nat) : Prop where
  le : k ≤ rs.length
  ptr : st.ptr = eoff E.dens (flat rs) (2*k)
  lay : Lay h rs.length st.left st.idx k
  soft : st.left ≠ 0 → st.soft + 1 = k

/-- the iterator has reported the start of run `k` -/
structure Mid (E : EncVector) (rs : List (Nat × Nat)) (h : Nat) (st : RunOps) (k : Nat) : Prop where
  lt : k < rs.length
  ptr : st.ptr = eoff E.dens (flat rs) (2*k+1)
  lay : Lay h rs.length st.left st.idx (k+1)
  soft : st.soft = k

namespace PartOK
variable {E : EncVector} {ranks : List Nat} {rs : List (Nat × Nat)} {n h : Nat}

theorem hpos (hp : PartOK E ranks rs n h) : 0 < h := by have := hp.enc.dens; rw [hp.half] at this; omega

theorem size (hp : PartOK E ranks rs n h) : E.size = 2 * rs.length := by rw [hp.enc.size, flat_length]

theorem nSamples (hp : PartOK E ranks rs n h) : ∃ m, nSamples E = some m ∧ ∀ b, b < m ↔ b * h < rs.length := by
  have h0 := hp.ne
  have h1 := hp.hpos
  refine ⟨(2 * rs.length - 1) / (2 * h) + 1, ?_, ?_⟩
  · simp only [Sri.nSamples, csub, assertC, hp.size, hp.half, Option.bind_eq_bind]
    rw [if_pos (by omega)]
    simp only [Option.bind_some]
    rw [if_pos (by simp; omega)]
    rfl
  · intro b
    rw [Nat.lt_succ_iff, Nat.le_div_iff_mul_le (by omega), show b * (2 * h) = 2 * (b * h) by ring]
    omega

theorem mod_ne (hp : PartOK E ranks rs n h) {idx k : Nat} (h1 : 1 ≤ idx) (h2 : (idx - 1) * h < k) (h3 : k < idx * h) :
    2 * k % E.dens ≠ 0 := by
  rw [hp.half, Nat.mul_mod_mul_left]
  intro h0
  obtain ⟨q, hq⟩ := Nat.dvd_of_mod_eq_zero (show k % h = 0 by omega)
  rw [hq, Nat.mul_comm h q] at h2 h3
  have := Nat.lt_of_mul_lt_mul_right h2
  have := Nat.lt_of_mul_lt_mul_right h3
  omega

theorem mod_ne_odd (hp : PartOK E ranks rs n h) (k : Nat) : (2 * k + 1) % E.dens ≠ 0 := by
  intro h0
  obtain ⟨q, hq⟩ := Nat.dvd_of_mod_eq_zero h0
  rw [hp.half, Nat.mul_assoc] at hq
  omega

theorem init (hp : PartOK E ranks rs n h) {idx : Nat} (hi : idx * h < rs.length) :
    ∃ st, RunOps.init E idx = some st ∧ At E rs h st (idx * h) ∧ st.left = 0 := by
  obtain ⟨_, h2⟩ := hp.enc.sample idx (by rw [hp.half, flat_length, show idx * (2 * h) = 2 * (idx * h) by ring]; omega)
  refine ⟨{ left := 0, idx := idx, ptr := eoff E.dens (flat rs) (2 * (idx * h)), soft := 0 }, ?_, ⟨by omega, rfl, ⟨?_, ?_⟩, ?_⟩, rfl⟩
  · rw [RunOps.init, h2, hp.half, show idx * (2 * h) = 2 * (idx * h) by ring]; rfl
  · show idx * h + 0 = min (idx * h) rs.length; omega
  · intro h; exact absurd rfl h
  · intro h; exact absurd rfl h

theorem start (hp : PartOK E ranks rs n h) {st : RunOps} {k x : Nat} (ha : At E rs h st k) (hk : k < rs.length)
    (hx : st.left ≠ 0 → x = rE rs n (k-1)) :
    ∃ st', RunOps.nextStart E n st x = some (rS rs n k, st') ∧ Mid E rs h st' k := by
  have hh := hp.hpos
  obtain ⟨l1, l2⟩ := ha.lay
  by_cases h0 : st.left = 0
  · obtain ⟨m, hm, hmi⟩ := hp.nSamples
    have hki : k = st.idx * h := by omega
    have hlt := (hmi st.idx).2 (by omega)
    obtain ⟨h1, _⟩ := hp.enc.sample st.idx (by rw [hp.half, flat_length, show st.idx * (2 * h) = 2 * (st.idx * h) by ring]; omega)
    rw [hp.half, show st.idx * (2 * h) = 2 * (st.idx * h) by ring, ← hki, flat_even rs n hk] at h1
    have hsz : st.idx * E.dens = 2 * k := by rw [hp.half, hki]; ring
    have hsz2 : st.idx * (2 * h) = 2 * k := by rw [hki]; ring
    refine ⟨{ st with soft := k, left := min h (rs.length - k) - 1, idx := st.idx + 1 }, ?_, hk, ?_, ⟨?_, ?_⟩, rfl⟩
    · simp only [RunOps.nextStart, h0, ne_eq, not_true_eq_false, if_false, hm, Option.bind_eq_bind, Option.bind_some, hlt, if_true, h1,
        hp.half, hsz2, hp.size, csub, Option.pure_def]
      rw [if_pos (by omega)]
      simp only [Option.bind_some]
      rw [if_pos (by omega)]
      simp only [Option.bind_some]
      congr 3
      · omega
      · omega
    · rw [show 2 * k + 1 = (2 * k) + 1 from rfl, eoff, if_pos (by rw [← hsz]; exact Nat.mul_mod_left _ _)]; exact ha.ptr
    · show k + 1 + (min h (rs.length - k) - 1) = min ((st.idx + 1) * h) rs.length
      rw [Nat.succ_mul, ← hki]; omega
    · intro _; exact ⟨by show 1 ≤ st.idx + 1; omega, by show (st.idx + 1 - 1) * h < k + 1; rw [Nat.add_sub_cancel, ← hki]; omega⟩
  · obtain ⟨l3, l4⟩ := l2 h0
    have hk0 : 0 < k := by omega
    have hcell := hp.enc.cell (2*k) (by rw [flat_length]; omega) (hp.mod_ne l3 l4 (by omega))
    rw [hp.good.delta_gap hp.nlt hk hk0] at hcell
    have hgap := hp.good.gap (k-1) (by omega)
    rw [show k - 1 + 1 = k by omega] at hgap
    refine ⟨{ st with soft := st.soft + 1, left := st.left - 1, ptr := eoff E.dens (flat rs) (2*k+1) }, ?_, hk, rfl, ⟨?_, ?_⟩, ha.soft h0⟩
    · simp only [RunOps.nextStart, ne_eq, h0, not_false_eq_true, if_true, ha.ptr, hcell, Option.bind_eq_bind, Option.bind_some,
        Option.pure_def, hx h0]
      congr 2
      omega
    · show k + 1 + (st.left - 1) = min (st.idx * h) rs.length; omega
    · intro _; exact ⟨l3, by show (st.idx - 1) * h < k + 1; omega⟩

theorem stop (hp : PartOK E ranks rs n h) {st : RunOps} {k : Nat} (hm : Mid E rs h st k) :
    ∃ st', RunOps.nextEnd E n st (rS rs n k) = some (rE rs n k, st') ∧ At E rs h st' (k+1) ∧ st'.soft = k := by
  have hlt := hp.good.lt k hm.lt
  have hcell := hp.enc.cell (2*k+1) (by have := hm.lt; rw [flat_length]; omega) (hp.mod_ne_odd k)
  rw [hp.good.delta_len hp.nlt hm.lt] at hcell
  refine ⟨{ st with ptr := eoff E.dens (flat rs) (2*k+1+1) }, ?_, ⟨?_, ?_, hm.lay, fun _ => ?_⟩, hm.soft⟩
  · simp only [RunOps.nextEnd, ne_eq]
    rw [if_pos (by omega), hm.ptr, hcell]
    simp only [Option.bind_eq_bind, Option.bind_some, Option.pure_def]
    congr 2
    omega
  · exact hm.lt
  · show eoff _ _ (2*k+1+1) = _; congr 1
  · show st.soft + 1 = _; rw [hm.soft]

theorem start_end (hp : PartOK E ranks rs n h) {st : RunOps} {x : Nat} (ha : At E rs h st rs.length) :
    ∃ st', RunOps.nextStart E n st x = some (n, st') ∧ At E rs h st' rs.length ∧ st'.left = 0 ∧ st'.soft = rs.length := by
  obtain ⟨l1, l2⟩ := ha.lay
  have h0 : st.left = 0 := by omega
  obtain ⟨m, hm, hmi⟩ := hp.nSamples
  refine ⟨{ st with soft := rs.length }, ?_, ⟨Nat.le_refl _, ha.ptr, ha.lay, fun hc => absurd h0 hc⟩, h0, rfl⟩
  simp only [RunOps.nextStart, h0, ne_eq, not_true_eq_false, if_false, hm, Option.bind_eq_bind, Option.bind_some, Option.pure_def, hp.size]
  rw [if_neg (by rw [hmi]; omega), show 2 * rs.length / 2 = rs.length by omega, ← h0]

theorem stop_end (st : RunOps) : RunOps.nextEnd E n st n = some (n, st) := by simp [RunOps.nextEnd]

/-- both steps at once: the iterator reports run `k` (or `(n,n)` when there is none) -/
theorem next (hp : PartOK E ranks rs n h) {st : RunOps} {k x : Nat} (ha : At E rs h st k) (hx : st.left ≠ 0 → x = rE rs n (k-1)) :
    ∃ st1 st2, RunOps.nextStart E n st x = some (rS rs n k, st1) ∧ st1.soft = k ∧
      RunOps.nextEnd E n st1 (rS rs n k) = some (rE rs n k, st2) ∧ At E rs h st2 (min (k+1) rs.length) ∧ st2.soft = k := by
  rcases Nat.lt_or_ge k rs.length with hk | hk
  · obtain ⟨st1, h1, h2⟩ := hp.start ha hk hx
    obtain ⟨st2, h3, h4, h5⟩ := hp.stop h2
    exact ⟨st1, st2, h1, h2.soft, h3, by rw [Nat.min_eq_left (by omega)]; exact h4, h5⟩
  · have hke : k = rs.length := by have := ha.le; omega
    subst hke
    obtain ⟨st1, h1, h2, _, h3⟩ := hp.start_end (x := x) ha
    rw [rS_ge (Nat.le_refl _), rE_ge (Nat.le_refl _)]
    exact ⟨st1, st1, h1, h3, stop_end st1, by rw [Nat.min_eq_right (by omega)]; exact h2, h3⟩

theorem mapM_some {α β : Type} {f : α → Option β} {g : α → β} {l : List α} (hf : ∀ x ∈ l, f x = some (g x)) :
    l.mapM f = some (l.map g) := by
  induction l with
  | nil => rfl
  | cons a l ih => rw [List.mapM_cons, hf a (by simp), ih (fun x hx => hf x (by simp [hx]))]; rfl

theorem upperBound_spec (xs : List Nat) (v : Nat) : upperBound xs v ≤ xs.length ∧
    (∀ i, i < upperBound xs v → ∃ y, xs[i]? = some y ∧ y ≤ v) ∧ (∀ y, xs[upperBound xs v]? = some y → v < y) := by
  induction xs with
  | nil => simp [upperBound]
  | cons a xs ih =>
    by_cases ha : a ≤ v
    · have he : upperBound (a :: xs) v = upperBound xs v + 1 := by simp [upperBound, ha]
      rw [he]
      refine ⟨by simp; exact ih.1, ?_, ?_⟩
      · intro i hi
        cases i with
        | zero => exact ⟨a, rfl, ha⟩
        | succ i => simpa using ih.2.1 i (by omega)
      · intro y hy; exact ih.2.2 y (by simpa using hy)
    · have he : upperBound (a :: xs) v = 0 := by simp [upperBound, ha]
      rw [he]
      refine ⟨by omega, by intro i hi; omega, ?_⟩
      intro y hy; simp at hy; omega

/-- the number of samples not greater than `v` -/
theorem upper (hp : PartOK E ranks rs n h) (v : Nat) :
    ∃ ub, computeUpperBound E v = some ub ∧ (∀ b, b < ub → b * h < rs.length ∧ rS rs n (b * h) ≤ v) ∧
      (ub * h < rs.length → v < rS rs n (ub * h)) := by
  obtain ⟨m, hm, hmi⟩ := hp.nSamples
  have hs : ∀ i ∈ List.range m, E.sample i = some (rS rs n (i * h)) := by
    intro i hi
    have hi := (hmi i).1 (List.mem_range.1 hi)
    obtain ⟨h1, _⟩ := hp.enc.sample i (by rw [hp.half, flat_length, show i * (2 * h) = 2 * (i * h) by ring]; omega)
    rw [hp.half, show i * (2 * h) = 2 * (i * h) by ring, flat_even rs n hi] at h1
    rw [EncVector.sample, assertC, if_pos, h1]; rfl
    simp only [decide_eq_true_eq]
    rw [hp.half, hp.size, show i * (2 * h) = 2 * (i * h) by ring]; omega
  obtain ⟨u1, u2, u3⟩ := upperBound_spec ((List.range m).map (fun i => rS rs n (i * h))) v
  refine ⟨upperBound ((List.range m).map (fun i => rS rs n (i * h))) v, ?_, ?_, ?_⟩
  · rw [computeUpperBound, hm]
    simp only [Option.bind_eq_bind, Option.bind_some, mapM_some hs]
    rfl
  · intro b hb
    obtain ⟨y, hy, hyv⟩ := u2 b hb
    have hbm : b < m := by rw [List.length_map, List.length_range] at u1; omega
    rw [List.getElem?_map, List.getElem?_range hbm] at hy
    simp at hy
    exact ⟨(hmi b).1 hbm, by omega⟩
  · intro hb
    apply u3
    rw [List.getElem?_map, List.getElem?_range ((hmi _).2 hb)]; rfl

end PartOK
end Sri

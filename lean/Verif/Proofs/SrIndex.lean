import Verif.Proofs.BackRangeV
import Verif.Proofs.Sampling
/-! # SrIndex: samples, phi, toehold, construction -/
namespace Sri
set_option autoImplicit false

theorem mapM_some {α β : Type} {f : α → Option β} {g : α → β} {l : List α} (h : ∀ x ∈ l, f x = some (g x)) :
    l.mapM f = some (l.map g) := by
  induction l with
  | nil => rfl
  | cons x l ih =>
    rw [List.mapM_cons, h x (by simp), ih (fun y hy => h y (by simp [hy]))]; rfl

section
variable {T sa : List Nat}

/-- text positions of the marks linked to the kept samples -/
def subPos (T sa : List Nat) (K : List Nat) : List Nat := K.map (fun k => pv T sa (hd T sa ((k+1) % nrun T sa)))

theorem subPos_get {K : List Nat} {k : Nat} (hk : k < K.length) :
    (subPos T sa K)[k]? = some (pv T sa (hd T sa ((K[k]+1) % nrun T sa))) := by
  rw [subPos, List.getElem?_map, List.getElem?_eq_getElem hk]; rfl

theorem mem_subPos {K : List Nat} {p : Nat} : p ∈ subPos T sa K ↔ ∃ k ∈ K, pv T sa (hd T sa ((k+1) % nrun T sa)) = p := by
  simp [subPos]

theorem mod_succ_inj {n a b : Nat} (ha : a < n) (hb : b < n) (h : (a+1) % n = (b+1) % n) : a = b := by
  rcases Nat.lt_or_eq_of_le (show a + 1 ≤ n from ha) with h1 | h1 <;> rcases Nat.lt_or_eq_of_le (show b + 1 ≤ n from hb) with h2 | h2
  · rw [Nat.mod_eq_of_lt h1, Nat.mod_eq_of_lt h2] at h; omega
  · rw [Nat.mod_eq_of_lt h1, h2, Nat.mod_self] at h; omega
  · rw [h1, Nat.mod_self, Nat.mod_eq_of_lt h2] at h; omega
  · omega

theorem subPos_nodup (hn : 0 < T.length) (hsa : IsSA T sa) {K : List Nat} (hd' : K.Nodup) (hlt : ∀ k ∈ K, k < nrun T sa) :
    (subPos T sa K).Nodup := by
  have hr := nrun_pos (sa := sa) hn
  refine List.Nodup.map_on ?_ hd'
  intro x hx y hy h
  have h1 := Nat.mod_lt (x+1) hr
  have h2 := Nat.mod_lt (y+1) hr
  exact mod_succ_inj (hlt x hx) (hlt y hy) (hd_inj h1 h2 (pv_inj hsa (hd_lt h1) (hd_lt h2) h))

theorem subPos_sub (hn : 0 < T.length) {K : List Nat} : ∀ p, p ∈ subPos T sa K → HeadMark T sa p := by
  intro p hp
  obtain ⟨k, -, rfl⟩ := mem_subPos.1 hp
  exact ⟨_, headAt_hd (Nat.mod_lt _ (nrun_pos hn)), rfl⟩

/-- predecessor among the kept marks, when no mark was dropped in the gap, is the predecessor among all marks -/
theorem circ_of_gap {M M' : Nat → Prop} {v p : Nat} (hs : ∀ q, M' q → M q) (hp : CircPred M' v p)
    (hfirst : ∀ q, M q → ∃ x, M' x ∧ x ≤ q) (hlast : ∀ q, M q → ∃ x, M' x ∧ q ≤ x)
    (hgap : p < v → ∀ q, M q → p < q → v ≤ q) : CircPred M v p := by
  refine ⟨hs p hp.1, ?_, ?_⟩
  · rintro ⟨q, hq, hqv⟩
    obtain ⟨x, hx, hxq⟩ := hfirst q hq
    have hpv := (hp.2.1 ⟨x, hx, by omega⟩).1
    refine ⟨hpv, fun q hq hqv => ?_⟩
    by_contra hc
    have := hgap hpv q hq (by omega); omega
  · intro hall q hq
    obtain ⟨x, hx, hqx⟩ := hlast q hq
    have := hp.2.2 (fun y hy => hall y (hs y hy)) x hx
    omega

/-- the kept tails -/
def keptOf (T sa K : List Nat) (y : Nat) : Prop := ∃ k ∈ K, tl T sa k = y

namespace SrIndex

/-- what the members of a built SrIndex hold, relative to the compacted text; `K` lists the sampled runs -/
structure OK (I : SrIndex) (T sa K : List Nat) : Prop where
  nav : I.base.NavOK T sa
  sorted : K.Pairwise (· < ·)
  lt : ∀ k ∈ K, k < nrun T sa
  samples : I.base.samples = K.map (fun k => pv T sa (tl T sa k))
  samplesIdx : I.samplesIdx = (List.range (nrun T sa)).map (fun i => decide (i ∈ K))
  marks : I.base.marks = (List.range T.length).map (fun i => decide (i ∈ subPos T sa K))
  links : I.base.markToSample = sortIndices (subPos T sa K)
  sampling : TailSampling T sa I.s (keptOf T sa K)
  zero : ∃ k ∈ K, saAt sa (tl T sa k) = 0
  first : ∀ q, HeadMark T sa q → ∃ x, x ∈ subPos T sa K ∧ x ≤ q
  last : ∀ q, HeadMark T sa q → ∃ x, x ∈ subPos T sa K ∧ q ≤ x

variable {I : SrIndex} {K : List Nat}

theorem OK.nodup (h : I.OK T sa K) : K.Nodup := h.sorted.imp (fun h => by omega)

theorem OK.ne (h : I.OK T sa K) : subPos T sa K ≠ [] := by
  obtain ⟨k, hk, -⟩ := h.zero
  intro hc
  have := (mem_subPos (T := T) (sa := sa)).2 ⟨k, hk, rfl⟩
  rw [hc] at this; simp at this

theorem OK.kept_tl (h : I.OK T sa K) {k : Nat} (hk : k < nrun T sa) : keptOf T sa K (tl T sa k) ↔ k ∈ K := by
  constructor
  · rintro ⟨m, hm, e⟩
    rw [← tl_inj (h.lt m hm) hk e]; exact hm
  · intro hm; exact ⟨k, hm, rfl⟩

/-- the sample of a run, if it was kept -/
theorem OK.getSample_eq (h : I.OK T sa K) {k : Nat} (hk : k < nrun T sa) :
    I.getSample k = some (if k ∈ K then some (pv T sa (tl T sa k)) else none) := by
  unfold SrIndex.getSample
  rw [h.samplesIdx, List.getElem?_map, List.getElem?_range hk]
  simp only [Option.map_some, Option.bind_eq_bind, Option.bind_some]
  by_cases hm : k ∈ K
  · have h1 := count_bits h.nodup (n := nrun T sa) (p := k) (by omega)
    have h2 := strict_index (key := fun x => x) h.sorted hm
    rw [← h1] at h2
    simp only [hm, decide_true, if_true, bvRank, List.length_map, List.length_range, show k ≤ nrun T sa by omega, Option.bind_some,
      h.samples, List.getElem?_map, h2, Option.map_some]
    rfl
  · simp only [hm, decide_false, Bool.false_eq_true, if_false]; rfl

/-- the predecessor step of phi over the kept marks -/
theorem OK.pred (h : I.OK T sa K) {i : Nat} (h1 : 1 ≤ i) (hi : i < T.length) :
    ∃ o k p, I.base.predecessor (saAt sa i) = some (o, p) ∧ I.base.markToSample[o]? = some k ∧
      (sortBy (fun x => x) (subPos T sa K))[o]? = some p ∧ o < K.length ∧
      CircPred (· ∈ subPos T sa K) (saAt sa i) p ∧
      ∃ y, I.base.samples[k]? = some y ∧
      (CircPred (HeadMark T sa) (saAt sa i) p →
        (y + (if p < saAt sa i then saAt sa i - p else saAt sa i + 1)) % T.length = saAt sa (i-1)) ∧
      ((∀ e, e < I.s → ¬ keptOf T sa K (lfIt T sa e (i-1))) → CircPred (HeadMark T sa) (saAt sa i) p) := by
  have hsa := h.nav.isSA
  have hn := h.nav.text.pos
  have hr := nrun_pos (sa := sa) hn
  have hnd := subPos_nodup hn hsa h.nodup h.lt
  have hlt : ∀ v ∈ subPos T sa K, v < T.length := fun v hv => by
    obtain ⟨k, -, rfl⟩ := mem_subPos.1 hv; exact pv_lt hn
  obtain ⟨o, k, hk, e1, e2, e3, e4⟩ := pred_marks hnd hlt h.ne (v := saAt sa i) (by have := saAt_lt hsa hi; omega)
  have hkK : k < K.length := by simpa [subPos] using hk
  have hval : (subPos T sa K)[k] = pv T sa (hd T sa ((K[k]+1) % nrun T sa)) := by
    have := subPos_get (T := T) (sa := sa) hkK
    rw [List.getElem?_eq_getElem hk] at this; simpa using this
  have hKk : K[k] < nrun T sa := h.lt _ (List.getElem_mem hkK)
  have hmod := Nat.mod_lt (K[k]+1) hr
  refine ⟨o, k, (subPos T sa K)[k], ?_, by rw [h.links]; exact e2, ?_, ?_, e4, pv T sa (tl T sa K[k]), ?_, ?_, ?_⟩
  · unfold RIndex.predecessor; rw [h.marks, h.nav.n]; exact e1
  · have hs : (sortBy (fun x => x) (subPos T sa K)).Pairwise (fun a b => a < b) := sortBy_strict (by simpa using hnd)
    have := strict_index (key := fun x => x) hs ((sortBy_perm _ _).mem_iff.2 (List.getElem_mem hk))
    rw [(sortBy_perm _ _).countP_eq, ← e3] at this
    exact this
  · have := sortIndices_length (subPos T sa K)
    have h2 := (List.getElem?_eq_some_iff.1 e2).1
    rw [this] at h2; simpa [subPos] using h2
  · rw [h.samples, List.getElem?_map, List.getElem?_eq_getElem hkK]; rfl
  · intro hcp
    obtain ⟨d, f1, f2, f3, f4, f5, f6⟩ := phi_back h.nav.text hsa h1 hi hcp
    have hh : lfIt T sa d i = hd T sa ((K[k]+1) % nrun T sa) := pv_inj hsa f2.1 (hd_lt hmod) (by rw [f4, hval])
    have hlt' : K[k] + 1 < nrun T sa := by
      by_contra hc
      rw [show K[k] + 1 = nrun T sa by omega, Nat.mod_self, hd_zero] at hh; omega
    rw [Nat.mod_eq_of_lt hlt'] at hh
    have := tl_succ hKk
    rw [f1, show tl T sa K[k] = lfIt T sa d i - 1 by omega]
    exact f6
  · intro hno
    obtain ⟨o', k', hk', g1, g2, g3, g4⟩ := pred_marks (headPos_nodup hsa) (headPos_lt hn) (headPos_ne (sa := sa) hn)
      (v := saAt sa i) (by have := saAt_lt hsa hi; omega)
    have hM : (fun x => x ∈ headPos T sa) = HeadMark T sa := by funext x; exact propext mem_headPos
    rw [hM] at g4
    obtain ⟨d, f1, f2, f3, f4, f5, f6⟩ := phi_back h.nav.text hsa h1 hi g4
    have hkept := sub_phi_back h.nav.text hsa h.sampling h1 hi f2 f3 f5 hno
    obtain ⟨m, hm, hmt⟩ := hkept
    have hml := h.lt m hm
    have hsucc := tl_succ hml
    have hlfl := lfIt_lt (T := T) hsa d hi
    have hm1 : m + 1 < nrun T sa := by
      by_contra hc
      have := tl_last (T := T) (sa := sa) hn
      rw [show nrun T sa - 1 = m by omega] at this
      omega
    have hmem : (headPos T sa)[k'] ∈ subPos T sa K := by
      refine mem_subPos.2 ⟨m, hm, ?_⟩
      rw [Nat.mod_eq_of_lt hm1, ← f4]
      congr 1; omega
    have := (g4.sub (subPos_sub hn) hmem).unique e4
    rw [← this]; exact g4

/-- phi of the plain index: right whenever no kept tail is met within `s` steps -/
theorem OK.phiOK (h : I.OK T sa K) : PhiOK T sa I.s (keptOf T sa K) I.base.phi := by
  intro i h1 hi
  have hn := h.nav.text.pos
  have hlast := sa_ne_last h.nav.text h.nav.isSA h1 hi
  obtain ⟨o, k, p, e1, e2, e3, -, e4, y, e5, e6, e7⟩ := h.pred h1 hi
  refine ⟨(y + (if p < saAt sa i then saAt sa i - p else saAt sa i + 1)) % T.length, true, ?_, fun hno => e6 (e7 hno)⟩
  unfold RIndex.phi phiBackward
  simp only [h.nav.n, csub, show 1 ≤ T.length by omega, if_true, Option.bind_eq_bind, Option.bind_some, assertC,
    show saAt sa i ≠ T.length - 1 by omega, ne_eq, not_false_eq_true, decide_true, e1]
  unfold getSampleForPhi validatorDefault
  simp only [e2, Option.map_some, Option.bind_eq_bind, Option.bind_some, e5, cmod, show T.length ≠ 0 by omega, if_false]
  rfl

/-- the functors of a sub-sampled index with any phi that is right when no kept tail is met -/
theorem OK.backOK (h : I.OK T sa K) {phi : Nat → Option (Nat × Bool)} (hphi : PhiOK T sa I.s (keptOf T sa K) phi) :
    BackOK (I.rangePhi phi) T sa I.s (keptOf T sa K) where
  text := h.nav.text
  isSA := h.nav.isSA
  seq := h.nav.n
  rate := rfl
  tail := h.sampling.1
  noSample := fun r hr => by simp [rangePhi, getSampleRun, hr]
  sample := fun r hr hlt => by
    rw [h.kept_tl hlt]
    change (_ ∧ I.getSampleRun r = _) ∨ (_ ∧ I.getSampleRun r = _)
    unfold getSampleRun
    rw [if_pos hr, h.getSample_eq hlt]
    by_cases hm : r.rnk ∈ K
    · left; exact ⟨hm, by rw [if_pos hm]⟩
    · right; exact ⟨hm, by rw [if_neg hm]⟩
  split := fun r h1 h2 => by
    obtain ⟨l, e1, e2⟩ := split_pieces h.nav h1 h2
    exact ⟨l, e1, e2.rev⟩
  nav := fun r k hk hc h1 h2 h3 => ⟨_, lfForPhi_eq h.nav hk hc h1 h2 h3, rfl, rfl⟩
  update := rfl
  empty := rfl
  phi := hphi

/-- run data name run `q` -/
def den (I : SrIndex) (T sa : List Nat) (d : RunDataExt) (q : Nat) : Prop :=
  I.base.bwtRle.selectOnRuns d.lastRunRnk d.c = some q ∧ d.isRunEnd = true ∧ d.nextPos = lfAt T sa (tl T sa q)

theorem creates : RIndex.Creates I.base T sa (den I T sa) createData :=
  fun _ c nr _ => ⟨{ c := c, lastRunRnk := nr.stop.rank, isRunEnd := true, nextPos := nr.stop.value - 1 }, rfl,
    fun _ h h2 => ⟨h, rfl, by dsimp only; omega⟩⟩

/-- the walking data stand at position `x` -/
def At (T sa : List Nat) (x : Nat) (d : RunDataExt) : Prop :=
  ∃ k, k < nrun T sa ∧ hd T sa k ≤ x ∧ x ≤ tl T sa k ∧ d.lastRunRnk = k ∧ d.isRunEnd = decide (x = tl T sa k) ∧
    d.nextPos = lfAt T sa x

theorem OK.findSample_eq (h : I.OK T sa K) (fuel : Nat) : ∀ (x : Nat) (d : RunDataExt), At T sa x d → saAt sa x < fuel →
    ∃ j, findSample I.getSampleData I.lfData fuel d = some (pv T sa (lfIt T sa j x), j) ∧
      ∀ e, keptOf T sa K (lfIt T sa e x) → j ≤ e := by
  induction fuel with
  | zero => intro x d _ hf; omega
  | succ fuel ih =>
    rintro x d ⟨k, hk, h1, h2, h3, h4, h5⟩ hf
    have hsa := h.nav.isSA
    have hx : x < T.length := by have := tl_lt hk; omega
    rw [findSample]
    by_cases hs : x = tl T sa k ∧ k ∈ K
    · refine ⟨0, ?_, fun e _ => Nat.zero_le e⟩
      have : I.getSampleData d = some (some (pv T sa x)) := by
        unfold getSampleData
        rw [h4, if_pos (by simp [hs.1]), h3, h.getSample_eq hk, if_pos hs.2, ← hs.1]
      simp only [this, Option.bind_eq_bind, Option.bind_some, lfIt_zero]; rfl
    · have hg : I.getSampleData d = some none := by
        unfold getSampleData
        rw [h4]
        by_cases hxt : x = tl T sa k
        · rw [if_pos (by simp [hxt]), h3, h.getSample_eq hk, if_neg (fun hc => hs ⟨hxt, hc⟩)]
        · rw [if_neg (by simp [hxt])]
      have hpos : 0 < saAt sa x := by
        by_contra hc
        obtain ⟨m, hm, hz⟩ := h.zero
        have hml := h.lt m hm
        have hxm : x = tl T sa m := saAt_inj hsa hx (tl_lt hml) (by omega)
        have : m = k := run_unique hml hk (by rw [hxm]; exact hd_le_tl hml) (Nat.le_of_eq hxm) h1 h2
        subst this
        exact hs ⟨hxm, hm⟩
      have hy := lfAt_lt hsa hx
      obtain ⟨k', hk', g1, g2⟩ := run_find (sa := sa) hy
      have hst := sa_lf_of_pos hsa hx hpos
      have hlf : I.lfData d = some { c := bwtAt T sa (lfAt T sa x), lastRunRnk := k', isRunEnd := decide (lfAt T sa x = tl T sa k'), nextPos := lfAt T sa (lfAt T sa x) } := by
        unfold lfData
        rw [h5, h.nav.rle.rankAt hk' g1 g2]
        simp only [Option.bind_eq_bind, Option.bind_some, csub, show 1 ≤ tl T sa k' + 1 by omega, if_true,
          h.nav.C _ (bwtAt_mem hsa hy), Nat.add_sub_cancel, ← lf_eq h.nav.text hsa hy]
        rfl
      obtain ⟨j, hj, hje⟩ := ih (lfAt T sa x) { c := bwtAt T sa (lfAt T sa x), lastRunRnk := k', isRunEnd := decide (lfAt T sa x = tl T sa k'), nextPos := lfAt T sa (lfAt T sa x) }
        ⟨k', hk', g1, g2, rfl, rfl, rfl⟩ (by omega)
      refine ⟨j + 1, ?_, ?_⟩
      · simp only [hg, hlf, hj, Option.bind_eq_bind, Option.bind_some, lfIt_succ']
        rfl
      · intro e he
        cases e with
        | zero =>
          obtain ⟨m, hm, hmx⟩ := he
          rw [lfIt_zero] at hmx
          have hml := h.lt m hm
          have : m = k := run_unique hml hk (by rw [← hmx]; exact hd_le_tl hml) (Nat.le_of_eq hmx.symm) h1 h2
          subst this
          exact absurd ⟨hmx.symm, hm⟩ hs
        | succ e =>
          rw [lfIt_succ'] at he
          have := hje e he
          omega

theorem OK.saValueOfRun_eq (h : I.OK T sa K) {d : RunDataExt} {q : Nat} (hq : q < nrun T sa) (hd' : den I T sa d q) :
    I.saValueOfRun d = some (saAt sa (tl T sa q)) := by
  obtain ⟨d1, d2, d3⟩ := hd'
  have hn := h.nav.text.pos
  have hlt := tl_lt hq
  obtain ⟨j, hj, -⟩ := h.findSample_eq (I.base.n + 1) (tl T sa q) { d with lastRunRnk := q }
    ⟨q, hq, hd_le_tl hq, Nat.le_refl _, rfl, by simp [d2], d3⟩ (by rw [h.nav.n]; have := saAt_lt h.nav.isSA hlt; omega)
  unfold saValueOfRun saValueBackward
  rw [h.nav.n] at hj
  simp only [d1, hj, Option.bind_eq_bind, Option.bind_some, cmod, h.nav.n, show T.length ≠ 0 by omega, if_false]
  rw [show pv T sa (lfIt T sa j (tl T sa q)) + 1 + T.length + j = pv T sa (lfIt T sa j (tl T sa q)) + 1 + j + T.length by omega,
    Nat.add_mod_right, sample_value h.nav.isSA hlt rfl]

/-- functors of the family navigate as RIndex does -/
theorem navigates (I : SrIndex) (g : Range → Nat → Option (List Nat)) : RIndex.Navigates (I.functorsWith g) I.base :=
  ⟨rfl, rfl, rfl, rfl, rfl, rfl⟩

theorem OK.toehold_eq (h : I.OK T sa K) {Q : List Nat} {r : Range} {d : StepData RunDataExt}
    (hth : RIndex.THof (den I T sa) T sa Q 0 r d) (hQ : d.step < T.length) : I.toehold d = some (saAt sa (r.stop - 1)) :=
  h.nav.toehold_of (fun _ _ hq hden => ⟨_, h.saValueOfRun_eq hq hden, rfl⟩) hth hQ

/-- the values of a range, given a functor that reports all but the last -/
theorem OK.computeAll_eq (h : I.OK T sa K) {g : Range → Nat → Option (List Nat)}
    (hg : ∀ a b, 1 ≤ a → a ≤ b → b < T.length → g ⟨a, b⟩ (saAt sa b) = some (down sa a (b - a)))
    {Q : List Nat} {r : Range} {d : StepData RunDataExt}
    (hr : IsRange Q T sa r.start r.stop) (hne : Q ≠ []) (hQ : ∀ c ∈ Q, c ≠ 0) (hab : r.start < r.stop)
    (hth : RIndex.THof (den I T sa) T sa Q 0 r d) :
    (I.functorsWith g).computeAll r d = some (valuesDown sa r.start r.stop) := by
  have hlen := pattern_len h.nav.text hQ hr hab
  have hpos := range_pos h.nav.text h.nav.isSA hne hQ hr hab
  have hb := hr.2.1
  have hst : d.step < T.length := by obtain ⟨q, -, -, -, h4, -⟩ := hth; omega
  simp only [functorsWith, computeAllValues]
  rw [h.toehold_eq hth hst]
  simp only [Option.bind_eq_bind, Option.bind_some, RIndex.shrink, csub, show 1 ≤ r.stop by omega, if_true]
  change (g ⟨r.start, r.stop - 1⟩ (saAt sa (r.stop - 1))).bind _ = _
  rw [hg r.start (r.stop - 1) hpos (by omega) (by omega), Option.bind_some]
  change some (saAt sa (r.stop - 1) :: down sa r.start (r.stop - 1 - r.start)) = some (down sa r.start (r.stop - r.start))
  rw [show r.stop - r.start = (r.stop - 1 - r.start) + 1 by omega, down_succ, show r.start + (r.stop - 1 - r.start) = r.stop - 1 by omega]

theorem OK.phiForRange_eq (h : I.OK T sa K) (a b : Nat) (_ha : 1 ≤ a) (hab : a ≤ b) (hb : b < T.length) :
    I.phiForRange ⟨a, b⟩ (saAt sa b) = some (down sa a (b - a)) := by
  unfold phiForRange
  dsimp only
  by_cases hlt : a < b
  · rw [if_pos hlt]
    obtain ⟨l, e1, e2⟩ := split_pieces h.nav hlt (by omega)
    simp only [e1, Option.bind_eq_bind, Option.bind_some]
    exact backRange_spec (h.backOK h.phiOK) hlt hb e2.rev
  · rw [if_neg hlt, show b - a = 0 by omega]; rfl

/-- positions of the kept samples satisfy everything the index needs -/
theorem subsample (hT : IsText T) (hsa : IsSA T sa) (s : Nat) :
    ∃ K, subsampleIdx s (tailPos T sa) (sortIndices (tailPos T sa)) (linksPhiBackward (headPos T sa)).2 = some K ∧
      K.Pairwise (· < ·) ∧ (∀ k ∈ K, k < nrun T sa) ∧ TailSampling T sa s (keptOf T sa K) ∧
      (∃ k ∈ K, saAt sa (tl T sa k) = 0) ∧ (∀ q, HeadMark T sa q → ∃ x, x ∈ subPos T sa K ∧ x ≤ q) ∧
      (∀ q, HeadMark T sa q → ∃ x, x ∈ subPos T sa K ∧ q ≤ x) := by
  have hn := hT.pos
  have hr := nrun_pos (sa := sa) hn
  -- the links of the first and last marks
  have hlinks : (linksPhiBackward (headPos T sa)).2 = (sortIndices (headPos T sa)).map (fun k => (k + nrun T sa - 1) % nrun T sa) := by
    simp [linksPhiBackward, headPos_length]
  have hsl : (sortIndices (headPos T sa)).length = nrun T sa := by rw [sortIndices_length, headPos_length]
  have hstr := sortIndices_strict (headPos_nodup hsa)
  have hperm := sortIndices_perm (headPos T sa)
  rw [headPos_length] at hperm
  set S := sortIndices (headPos T sa) with hS
  have hSlt : ∀ j (hj : j < S.length), S[j] < nrun T sa := fun j hj => List.mem_range.1 (hperm.mem_iff.1 (List.getElem_mem hj))
  have hval : ∀ k, k < nrun T sa → (headPos T sa).getD k 0 = pv T sa (hd T sa k) := fun k hk => by
    rw [List.getD_eq_getElem?_getD, headPos_get hk]; rfl
  have hmono : ∀ i j (hi : i < S.length) (hj : j < S.length), i ≤ j →
      pv T sa (hd T sa S[i]) ≤ pv T sa (hd T sa S[j]) := by
    intro i j hi hj hij
    rcases Nat.lt_or_eq_of_le hij with h | rfl
    · have := List.pairwise_iff_getElem.1 hstr i j hi hj h
      rw [hval _ (hSlt i hi), hval _ (hSlt j hj)] at this
      omega
    · exact Nat.le_refl _
  have hidx : ∀ q, HeadMark T sa q → ∃ j, ∃ hj : j < S.length, pv T sa (hd T sa S[j]) = q := by
    rintro q ⟨y, hy, rfl⟩
    obtain ⟨k, hk, rfl⟩ := headAt_iff.1 hy
    obtain ⟨j, hj, rfl⟩ := List.getElem_of_mem (hperm.mem_iff.2 (List.mem_range.2 hk))
    exact ⟨j, hj, rfl⟩
  -- the sampling
  have hvt : ∀ k, k < nrun T sa → (tailPos T sa).getD k 0 = pv T sa (tl T sa k) := fun k hk => by
    rw [List.getD_eq_getElem?_getD, tailPos_get hk]; rfl
  have hmemI : ∀ k, k ∈ sortIndices (tailPos T sa) ↔ k < nrun T sa := fun k => by
    rw [(sortIndices_perm _).mem_iff, List.mem_range, tailPos_length]
  obtain ⟨K', e1, e2, -, -, e3, e4⟩ := computeSampling_spec s (sortIndices (tailPos T sa)) (tailPos T sa)
    [(S[0] + nrun T sa - 1) % nrun T sa, (S[S.length - 1] + nrun T sa - 1) % nrun T sa]
    (fun x hx => by rw [tailPos_length]; exact (hmemI x).1 hx) (sortIndices_strict (tailPos_nodup hsa))
  have hK'lt : ∀ k ∈ K', k < nrun T sa := fun k hk => (hmemI k).1 (e2.subset hk)
  have hK'nd : K'.Nodup := e2.nodup ((sortIndices_perm _).nodup_iff.2 List.nodup_range)
  have hmem : ∀ k, k ∈ sortBy (fun i => i) K' ↔ k ∈ K' := fun k => (sortBy_perm _ _).mem_iff
  have hsub : ∀ j (hj : j < S.length), (S[j] + nrun T sa - 1) % nrun T sa ∈ K' →
      pv T sa (hd T sa S[j]) ∈ subPos T sa (sortBy (fun i => i) K') := by
    intro j hj hm
    refine mem_subPos.2 ⟨_, (hmem _).2 hm, ?_⟩
    have hlt := hSlt j hj
    congr 2
    rw [Nat.mod_add_mod, show S[j] + nrun T sa - 1 + 1 = S[j] + nrun T sa by omega, Nat.add_mod_right, Nat.mod_eq_of_lt hlt]
  have hreq : ∀ j (hj : j < S.length), (j = 0 ∨ j = S.length - 1) → (S[j] + nrun T sa - 1) % nrun T sa ∈ K' := by
    intro j hj hj2
    refine e3 _ ((hmemI _).2 (Nat.mod_lt _ hr)) ?_
    rcases hj2 with rfl | rfl <;> simp
  refine ⟨sortBy (fun i => i) K', ?_, sortBy_strict (by simpa using hK'nd), fun k hk => hK'lt k ((hmem k).1 hk), ?_, ?_, ?_, ?_⟩
  · unfold subsampleIdx computeSortedSampling
    rw [hlinks]
    rw [show (S.map fun k => (k + nrun T sa - 1) % nrun T sa)[0]? = some ((S[0] + nrun T sa - 1) % nrun T sa) by
      rw [List.getElem?_map, List.getElem?_eq_getElem (by omega)]; rfl]
    simp only [Option.bind_eq_bind, Option.bind_some, List.length_map, csub, show 1 ≤ S.length by omega, if_true]
    rw [show (S.map fun k => (k + nrun T sa - 1) % nrun T sa)[S.length - 1]? = some ((S[S.length - 1] + nrun T sa - 1) % nrun T sa) by
      rw [List.getElem?_map, List.getElem?_eq_getElem (by omega)]; rfl]
    rw [Option.bind_some, e1]; rfl
  · refine ⟨?_, ?_⟩
    · rintro y ⟨k, hk, rfl⟩
      exact tailAt_tl (hK'lt k ((hmem k).1 hk))
    · intro y hy hno
      obtain ⟨k, hk, rfl⟩ := tailAt_iff.1 hy
      have hkK : k ∉ K' := fun hc => hno ⟨k, (hmem k).2 hc, rfl⟩
      obtain ⟨A, a, b, B, f1, f2, f3, f4⟩ := e4 k ((hmemI k).2 hk) hkK
      have ha : a ∈ K' := by rw [f1]; simp
      have hb : b ∈ K' := by rw [f1]; simp
      simp only [hvt a (hK'lt a ha), hvt b (hK'lt b hb), hvt k hk] at f2 f3 f4
      exact ⟨tl T sa a, tl T sa b, ⟨a, (hmem a).2 ha, rfl⟩, ⟨b, (hmem b).2 hb, rfl⟩, f2, f3, f4⟩
  · obtain ⟨k, hk, z1, z2, z3⟩ := zero_run hT hsa
    refine ⟨k, (hmem k).2 ?_, by rw [← z1]; exact z2⟩
    by_contra hc
    obtain ⟨A, a, b, B, f1, f2, f3, f4⟩ := e4 k ((hmemI k).2 hk) hc
    have hb : b ∈ K' := by rw [f1]; simp
    simp only [hvt b (hK'lt b hb), hvt k hk] at f3
    have := pv_lt (T := T) (sa := sa) (i := tl T sa b) hn
    rw [← z1, z3] at f3
    omega
  · intro q hq
    obtain ⟨j, hj, rfl⟩ := hidx q hq
    exact ⟨_, hsub 0 (by omega) (hreq 0 (by omega) (Or.inl rfl)), hmono 0 j (by omega) hj (by omega)⟩
  · intro q hq
    obtain ⟨j, hj, rfl⟩ := hidx q hq
    exact ⟨_, hsub (S.length - 1) (by omega) (hreq _ (by omega) (Or.inr rfl)), hmono j _ hj (by omega) (by omega)⟩

theorem submarks_eq (hn : 0 < T.length) (K : List Nat) : submarks (headPos T sa) K = some (subPos T sa K) := by
  have hr := nrun_pos (sa := sa) hn
  unfold submarks subPos
  apply mapM_some
  intro k _
  simp only [cmod, headPos_length, show nrun T sa ≠ 0 by omega, if_false, Option.bind_eq_bind, Option.bind_some,
    headPos_get (Nat.mod_lt (k+1) hr)]

/-- construction establishes the invariant over the compacted text -/
theorem build_ok (hT : IsText T) (hsa : IsSA T sa) (s : Nat) :
    ∃ I T' K, SrIndex.build T sa s = some I ∧ I.OK T' sa K ∧ I.s = s ∧ Compact T sa I.base.alphabet T' ∧
      subsampleIdx s (tailPos T' sa) (sortIndices (tailPos T' sa)) (linksPhiBackward (headPos T' sa)).2 = some K := by
  obtain ⟨b, T', hb, ok⟩ := base_build hT hsa
  have hc := ok.compact
  have hn' : 0 < T'.length := hc.text.pos
  have hC := hc.C b.alphabet.sigma (Nat.le_refl _)
  have hCn : cumC T' b.alphabet.sigma = T'.length := by
    rw [cumC, List.countP_eq_length]
    intro c hcm; simpa using hc.lt c hcm
  obtain ⟨K, f1, f2, f3, f4, f5, f6, f7⟩ := subsample hc.text hc.isSA s
  have hsp : ∀ v ∈ subPos T' sa K, v < T'.length := fun v hv => by
    obtain ⟨k, -, rfl⟩ := mem_subPos.1 hv; exact pv_lt hn'
  refine ⟨{ base := { alphabet := b.alphabet, bwtRle := b.bwtRle, samples := K.map (fun k => pv T' sa (tl T' sa k)), marks := (List.range T'.length).map (fun i => decide (i ∈ subPos T' sa K)), markToSample := sortIndices (subPos T' sa K), n := T'.length }, samplesIdx := (List.range (nrun T' sa)).map (fun i => decide (i ∈ K)), s := s },
    T', K, ?_, ?_, rfl, hc, f1⟩
  · unfold build
    have hsm : K.mapM (fun i => (tailPos T' sa)[i]?) = some (K.map (fun k => pv T' sa (tl T' sa k))) :=
      mapM_some (fun k hk => tailPos_get (f3 k hk))
    simp only [hb, Option.bind_eq_bind, Option.bind_some, ok.firstTextPos, ok.lastTextPos, ok.n, ok.last, f1, hsm,
      List.length_map, List.length_range, bitVector_eq f3, submarks_eq hn', bitVector_eq hsp, hC, hCn]
    rfl
  · exact ⟨⟨hc.text, hc.isSA, rfl, fun c h => hc.C c (Nat.le_of_lt (hc.lt c h)), ok.rle⟩, f2, f3, rfl, rfl, rfl, rfl, f4, f5, f6, f7⟩

end SrIndex
end
end Sri

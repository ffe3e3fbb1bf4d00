import Verif.Proofs.WordsRange
import Verif.Proofs.WordString
import Verif.Proofs.BackIndex
import Verif.Proofs.LF
import Verif.Proofs.SrValid
/-! # Machine arithmetic in the indexes that report backwards -/
namespace Sri
set_option autoImplicit false

section
variable {T sa T0 : List Nat}

theorem cum_cnt_le (hT : IsText T) (hsa : IsSA T sa) (c : Nat) {b : Nat} (hb : b ≤ T.length) : cumC T c + cnt T sa c b ≤ T.length := by
  by_contra hc
  have h0 : cnt T sa c 0 = 0 := by simp [cnt]
  have hle := cumC_le (T := T) c
  obtain ⟨j, h1, h2, h3, h4⟩ := (lf_between hT hsa (c := c) (f := 0) (l := b) hb T.length).1 (by omega)
  have := lfAt_lt hsa (show j < T.length by omega)
  omega

/-- every character of a pattern is mapped to a symbol of the compacted text -/
theorem Compact.symbol {a : Alphabet} (hc : Compact T0 sa a T) (ch : Nat) : a.char2comp ch ∈ T := by
  by_cases h : ch ∈ T0
  · exact hc.mem ch h
  · rw [hc.absent ch h]
    obtain ⟨u, hu, -⟩ := hc.text
    rw [hu]; simp

theorem Agrees.eq {α : Type} {x y : Option α} {P : α → Prop} (h : Agrees x y P) {r : α} (e : x = some r) : y = some r := (h r e).1

theorem RleBwt.small {S : RLEString} (h : RleBwt S T sa) (hn : Fits T.length) : S.Small :=
  h.rep.small (by
    have := hn.four
    rw [expand_runsOf]; simp only [List.length_map, List.length_range]; omega)

namespace RIndex
variable {I : RIndex}

theorem NavOK.lf64 (h : I.NavOK T sa) (hn : Fits T.length) {r : Range} {c : Nat} (hc : c ∈ T) (hr : r.stop ≤ T.length) (hlt : r.start < r.stop) :
    Agrees (I.lf r c) (I.lf64 r c) (fun nr => (RIndex.toRange nr).stop ≤ T.length) := by
  obtain ⟨a, b⟩ := r
  dsimp only at hr hlt
  have h4 := hn.four
  have hW := W64_eq
  obtain ⟨k, hk, h1, h2⟩ := run_find (sa := sa) (show b - 1 < T.length by omega)
  obtain ⟨m, hm, h3, h5⟩ := run_find (sa := sa) (show a < T.length by omega)
  obtain ⟨s, e1, e2⟩ := h.lf_eq hc hlt hr hk h1 h2
  have hb1 := cum_cnt_le h.text h.isSA c (show b - 1 ≤ T.length by omega)
  have hb2 := cum_cnt_le h.text h.isSA c hr
  have hb3 := cum_cnt_le h.text h.isSA c (show a ≤ T.length by omega)
  intro nr hnr
  refine ⟨?_, by rw [hnr, Option.some_inj] at e1; rw [e1]; exact hb2⟩
  rw [← hnr]
  unfold RIndex.lf64 RIndex.lf
  dsimp only
  rw [wsub_eq (by omega) (by omega)]
  have hs := h.rle.small hn
  have r1 := h.rle.rankReport hc hm h3 h5
  have r2 := h.rle.rankReport hc hk h1 h2
  simp only [csub, show 1 ≤ b by omega, if_true, Option.bind_eq_bind, Option.bind_some, r1, r2, (hs.rankReport a c).eq r1,
    (hs.rankReport (b - 1) c).eq r2, h.C c hc, Option.pure_def]
  rw [add64_eq (a := cnt T sa c a) (by omega)]
  have : add64 (cnt T sa c (b - 1)) (add64 (wsub (cumC T c) (if decide (bwtAt T sa (b - 1) = c) = true then 0 else 1)) 1) =
      cnt T sa c (b - 1) + cumC T c + (if decide (bwtAt T sa (b - 1) = c) = true then 1 else 0) := by
    by_cases hx : decide (bwtAt T sa (b - 1) = c) = true
    · rw [if_pos hx, if_pos hx, wsub_eq (by omega) (by omega), add64_eq (a := cumC T c - 0) (by omega), add64_eq (by omega)]; omega
    · rw [if_neg hx, if_neg hx]
      have : add64 (wsub (cumC T c) 1) 1 = cumC T c := by
        unfold add64 wsub; rw [Nat.mod_add_mod]
        rw [show cumC T c + W64 - 1 + 1 = cumC T c + W64 by omega, Nat.add_mod_right, Nat.mod_eq_of_lt (by omega)]
      rw [this, add64_eq (by omega)]; omega
  rw [this]

theorem NavOK.phiWith64 (h : I.NavOK T sa) (hn : Fits T.length) (hm : I.marks.length ≤ T.length) (hs : ∀ x ∈ I.samples, x < T.length)
    {getIdx : Nat → Option (Nat × Bool)} {valid : Nat → Nat → Bool → Option Bool} {v : Nat} (hv : v < T.length) :
    Agrees (phiBackward I.predecessor (getSampleForPhi getIdx (fun k => I.samples[k]?) valid) I.n v) (I.phiWith64 getIdx valid v)
      (fun r => r.1 < T.length) := by
  unfold RIndex.phiWith64
  rw [h.n]
  refine phiBackward_agrees hn ?_ (fun pos d r hr => getSampleForPhi_lt hs hr) hv
  unfold RIndex.predecessor RIndex.predecessor64
  rw [h.n]
  exact circularPredecessor_agrees hm hn

theorem shrink64_agrees (hn : Fits T.length) {r : Range} (hr : r.stop ≤ T.length) :
    Agrees (shrink r) (shrink64 r) (fun q => q.stop ≤ T.length) := by
  have h4 := hn.four
  have hW := W64_eq
  unfold shrink shrink64
  simp only [Option.bind_eq_bind, Option.pure_def]
  refine Agrees.csub fun hle => ?_
  rw [wsub_eq hle (by omega)]
  exact Agrees.pure (by dsimp only; omega)

theorem OK.sim (h : I.OK T sa) (hc : Compact T0 sa I.alphabet T) (hn : Fits T.length) :
    FunctorsSim I.functors I.functors64 (fun r => r.stop ≤ T.length) where
  getSymbol := rfl
  isEmpty := rfl
  bounds := rfl
  toRange := rfl
  full := rfl
  initial := rfl
  start := Nat.le_of_eq h.n
  lf := fun r ch hr he => h.toNavOK.lf64 hn (hc.symbol ch) hr (by simpa [RIndex.functors] using he)
  update := fun r nr c i d d' _ e => ⟨d', e, fun _ => rfl⟩
  computeAll := fun r d hr he => by
    have hs : ∀ x ∈ I.samples, x < T.length := by rw [h.samples]; exact tailPos_lt h.text.pos
    have hm : I.marks.length ≤ T.length := by rw [h.marks]; simp
    refine computeAllValues_agrees (n := T.length) (V := fun r => r.stop ≤ T.length) ?_
      (shrink64_agrees hn hr) ?_
    · unfold RIndex.toehold
      rw [h.rle.size]
      refine computeToehold_agrees hn ?_
      unfold RIndex.saValueOfRun RIndex.saValueOfRun64
      simp only [Option.bind_eq_bind, Option.pure_def]
      refine Agrees.bind (P := fun _ => True) (Agrees.refl fun _ _ => trivial) fun run _ _ => ?_
      refine Agrees.bind (P := fun x => x < T.length) (Agrees.refl fun x hx => hs _ (List.mem_of_getElem? hx)) fun x hx _ => ?_
      have h4 := hn.four
      have hW := W64_eq
      rw [add64_eq (by omega)]
      exact Agrees.pure hx
    · intro r k _ hk
      exact phiLoop_agrees (fun v hv => h.toNavOK.phiWith64 hn hm hs hv) _ k hk

end RIndex

namespace SrIndex
variable {I : SrIndex} {K : List Nat}

theorem OK.samples_lt (h : I.OK T sa K) : ∀ x ∈ I.base.samples, x < T.length := by
  rw [h.samples]
  intro x hx
  obtain ⟨k, -, rfl⟩ := List.mem_map.1 hx
  exact pv_lt h.nav.text.pos

theorem OK.getSample_lt (h : I.OK T sa K) {k : Nat} {x : Option Nat} (e : I.getSample k = some x) : ∀ v, x = some v → v < T.length := by
  rintro v rfl
  unfold SrIndex.getSample at e
  simp only [Option.bind_eq_bind, Option.bind_eq_some_iff, Option.pure_def] at e
  obtain ⟨b, -, e⟩ := e
  by_cases hb : b = true
  · rw [if_pos hb] at e
    simp only [Option.bind_eq_some_iff, Option.some.injEq] at e
    obtain ⟨_, -, _, hx, rfl⟩ := e
    exact h.samples_lt _ (List.mem_of_getElem? hx)
  · rw [if_neg hb] at e; cases e

/-- a piece of a run of the BWT -/
def InRun (T sa : List Nat) (r : PhiRun) : Prop :=
  ∃ k, k < nrun T sa ∧ r.c = sy T sa k ∧ hd T sa k ≤ r.start ∧ r.start < r.stop ∧ r.stop ≤ tl T sa k + 1

/-- a run of suffix-array positions -/
def InSA (T : List Nat) (r : PhiRun) : Prop := r.start < r.stop ∧ r.stop ≤ T.length

theorem inRun_of_pieces : ∀ {l : List PhiRun} {a b : Nat}, Pieces T sa b a l → ∀ q ∈ l, InRun T sa q := by
  intro l
  induction l with
  | nil => intro a b _ q hq; cases hq
  | cons r l ih =>
    rintro a b ⟨-, ⟨k, hk⟩, h3⟩ q hq
    rcases List.mem_cons.1 hq with rfl | hq
    · exact ⟨k, hk.lt, hk.c, hk.lo, hk.ne, hk.hi⟩
    · exact ih h3 q hq

theorem OK.split64 (h : I.OK T sa K) (hn : Fits T.length) {a b : Nat} (hab : a < b) (hb : b ≤ T.length) :
    Agrees (I.split a b) (I.split64 a b) (fun l => ∀ q ∈ l, InRun T sa q) := by
  refine Agrees.mono (P := fun _ => True) ?_ fun l hl _ => ?_
  · unfold SrIndex.split SrIndex.split64
    simp only [Option.bind_eq_bind, Option.pure_def]
    exact Agrees.bind ((h.nav.rle.small hn).splitInRuns a b) fun l _ _ => Agrees.refl fun _ _ => trivial
  obtain ⟨l', e1, e2⟩ := split_pieces h.nav hab hb
  rw [hl, Option.some_inj] at e1
  subst e1
  exact inRun_of_pieces e2

theorem updateRun64_agrees (hn : Fits T.length) {r : PhiRun} (hr : r.stop ≤ T.length) :
    Agrees (updateRun r) (updateRun64 r) (fun q => q = { r with stop := r.stop - 1, isRunEnd := false }) := by
  have h4 := hn.four
  have hW := W64_eq
  unfold updateRun updateRun64
  simp only [Option.bind_eq_bind, Option.pure_def]
  refine Agrees.csub fun hle => ?_
  rw [wsub_eq hle (by omega)]
  exact Agrees.pure rfl

theorem OK.rangeSim (h : I.OK T sa K) (hn : Fits T.length) (hs : I.s < 2 ^ 63) {phi phi' : Nat → Option (Nat × Bool)}
    (hphi : ∀ v, v < T.length → Agrees (phi v) (phi' v) (fun r => r.1 < T.length)) :
    RangePhi.Sim (I.rangePhi phi) (I.rangePhi64 phi') T.length (InSA T) (InRun T sa) where
  phi := hphi
  getSample := fun r hr => Agrees.refl fun x hx => by
    change I.getSampleRun r = some x at hx
    unfold SrIndex.getSampleRun at hx
    by_cases hb : r.isRunEnd = true
    · rw [if_pos hb] at hx; exact h.getSample_lt hx
    · rw [if_neg hb, Option.some_inj] at hx; rintro v rfl; cases hx
  splitRun := fun r hr => h.split64 hn hr.1 hr.2
  navigate := fun r hr => by
    obtain ⟨k, hk, hc, h1, h2, h3⟩ := hr
    have hlt := tl_lt hk
    have h4 := hn.four
    have hW := W64_eq
    have hcT : r.c ∈ T := by
      rw [hc, ← bwt_run hk h1 (show r.start ≤ tl T sa k by omega)]; exact bwtAt_mem h.nav.isSA (by omega)
    have e1 := lfForPhi_eq h.nav hk hc h1 h2 h3
    have hb2 := cum_cnt_le h.nav.text h.nav.isSA r.c (show r.start ≤ T.length by omega)
    have hb3 := cum_cnt_le h.nav.text h.nav.isSA r.c (show r.stop ≤ T.length by omega)
    have e2 := lf_block h.nav.text h.nav.isSA hk h1 (r.stop - 1 - r.start) (by omega)
    have e3 := lfAt_lt h.nav.isSA (show r.start + (r.stop - 1 - r.start) < T.length by omega)
    intro q hq
    change I.lfForPhi r = some q at hq
    refine ⟨?_, ?_⟩
    · change I.lfForPhi64 r = some q
      rw [← hq]
      unfold SrIndex.lfForPhi SrIndex.lfForPhi64
      have hs := h.nav.rle.small hn
      have r1 := h.nav.rle.rank (show r.start ≤ T.length by omega) hcT
      have r2 := h.nav.rle.rank (show r.stop ≤ T.length by omega) hcT
      simp only [r1, r2, (hs.rank r.start r.c).eq r1, (hs.rank r.stop r.c).eq r2, h.nav.C _ hcT, Option.bind_eq_bind, Option.bind_some,
        Option.pure_def]
      rw [add64_eq (by omega), add64_eq (by omega)]
    · rw [hq, Option.some_inj] at e1
      subst e1
      constructor <;> dsimp only <;> omega
  samplingSize := rfl
  small := hs
  seqSize := h.nav.n
  seqSize' := h.nav.n
  updateV := fun r hr => (updateRun64_agrees hn hr.2).mono fun q _ hq he => by
    subst hq
    have : r.start < r.stop - 1 := by simpa [SrIndex.rangePhi] using he
    exact ⟨this, by have := hr.2; dsimp only; omega⟩
  updateP := fun r hr => by
    obtain ⟨k, hk, hc, h1, h2, h3⟩ := hr
    have hlt := tl_lt hk
    refine (updateRun64_agrees hn (r := r) (by omega)).mono fun q _ hq he => ?_
    subst hq
    have : r.start < r.stop - 1 := by simpa [SrIndex.rangePhi] using he
    exact ⟨k, hk, hc, h1, this, by dsimp only; omega⟩
  isRunEmpty := rfl

theorem OK.lfData64 (h : I.OK T sa K) (hn : Fits T.length) (d : RunDataExt) : Agrees (I.lfData d) (I.lfData64 d) (fun _ => True) := by
  intro r hr
  refine ⟨?_, trivial⟩
  have h4 := hn.four
  have hW := W64_eq
  have hi : d.nextPos < T.length := by
    unfold SrIndex.lfData RLEString.rankAt at hr
    simp only [Option.bind_eq_bind, Option.bind_assoc, Option.bind_eq_some_iff, assertC] at hr
    obtain ⟨_, hi, -⟩ := hr
    rw [h.nav.rle.size] at hi
    by_contra hcon
    rw [if_neg (by simpa using hcon)] at hi; cases hi
  obtain ⟨k, hk, g1, g2⟩ := run_find (sa := sa) hi
  have htl := tl_lt hk
  have hb := cum_cnt_le h.nav.text h.nav.isSA (bwtAt T sa d.nextPos) (Nat.le_of_lt hi)
  rw [← hr]
  unfold SrIndex.lfData SrIndex.lfData64
  have r1 := h.nav.rle.rankAt hk g1 g2
  simp only [r1, ((h.nav.rle.small hn).rankAt d.nextPos).eq r1, Option.bind_eq_bind, Option.bind_some, csub, show 1 ≤ tl T sa k + 1 by omega, if_true,
    h.nav.C _ (bwtAt_mem h.nav.isSA hi), Option.pure_def]
  rw [add64_eq (by omega), wsub_eq (by omega) (by omega)]

theorem OK.toehold64 (h : I.OK T sa K) (hn : Fits T.length) (d : StepData RunDataExt) :
    Agrees (I.toehold d) (computeToehold64 I.saValueOfRun64 I.base.bwtRle.size d) (fun v => v < T.length) := by
  unfold SrIndex.toehold
  rw [h.nav.rle.size]
  refine computeToehold_agrees hn ?_
  unfold SrIndex.saValueOfRun SrIndex.saValueOfRun64
  simp only [Option.bind_eq_bind]
  refine Agrees.bind (P := fun _ => True) (Agrees.refl fun _ _ => trivial) fun run _ _ => ?_
  rw [h.nav.n]
  refine saValueBackward_agrees (W := fun _ => True) hn (by omega) (fun d _ => Agrees.refl fun x hx => ?_) (fun d _ => h.lfData64 hn d) trivial
  unfold SrIndex.getSampleData at hx
  by_cases hb : d.isRunEnd = true
  · rw [if_pos hb] at hx; exact h.getSample_lt hx
  · rw [if_neg hb, Option.some_inj] at hx; rintro v rfl; cases hx

theorem OK.sim (h : I.OK T sa K) (hc : Compact T0 sa I.base.alphabet T) (hn : Fits T.length)
    {p p' : Range → Nat → Option (List Nat)} (hp : ∀ r k, r.stop ≤ T.length → k < T.length → Agrees (p r k) (p' r k) (fun _ => True)) :
    FunctorsSim (I.functorsWith p) (I.functorsWith64 p') (fun r => r.stop ≤ T.length) where
  getSymbol := rfl
  isEmpty := rfl
  bounds := rfl
  toRange := rfl
  full := rfl
  initial := rfl
  start := Nat.le_of_eq h.nav.n
  lf := fun r ch hr he => h.nav.lf64 hn (hc.symbol ch) hr (by simpa [SrIndex.functorsWith] using he)
  update := fun r nr c i d d' hi e => by
    have h4 := hn.four
    have hW := W64_eq
    change updateToehold RIndex.lfTrivial createData r nr c i d = some d' at e
    change nr.stop.value ≤ T.length at hi
    change ∃ d'', updateToehold RIndex.lfTrivial createData64 r nr c i d = some d'' ∧ _
    unfold updateToehold at e ⊢
    by_cases ht : (decide (d.step = 0) || !RIndex.lfTrivial r c nr) = true
    · rw [if_pos ht] at e ⊢
      refine ⟨_, rfl, fun he => ?_⟩
      have hne : nr.start.value < nr.stop.value := by simpa [SrIndex.functorsWith, RIndex.toRange] using he
      unfold createData at e
      rw [Option.some_inj] at e
      rw [wsub_eq (by omega) (by omega)]
      exact e
    · rw [if_neg ht] at e ⊢
      exact ⟨d', e, fun _ => rfl⟩
  computeAll := fun r d hr he =>
    computeAllValues_agrees (n := T.length) (V := fun r => r.stop ≤ T.length) (h.toehold64 hn d)
      (RIndex.shrink64_agrees hn hr) hp

theorem OK.phiForRange64 (h : I.OK T sa K) (hn : Fits T.length) (hs : I.s < 2 ^ 63) {r : Range} {k : Nat} (hr : r.stop ≤ T.length)
    (hk : k < T.length) : Agrees (I.phiForRange r k) (I.phiForRange64 r k) (fun _ => True) := by
  have hm : I.base.marks.length ≤ T.length := by rw [h.marks]; simp
  have hS := h.rangeSim hn hs (phi := I.base.phi) (phi' := I.base.phi64) (fun v hv => h.nav.phiWith64 hn hm h.samples_lt hv)
  unfold SrIndex.phiForRange SrIndex.phiForRange64
  simp only [Option.bind_eq_bind]
  refine Agrees.ite (fun hlt => ?_) fun _ => Agrees.pure trivial
  exact Agrees.bind (h.split64 hn hlt hr) fun l hl _ => hS.backRange hn hl hk

end SrIndex

namespace SrIndexValid
variable {I : SrIndexValid} {K : List Nat} {V : List (Nat × Nat × Nat)}

theorem OK.phiForRange64 (h : I.OK T sa K V) (hn : Fits T.length) (hs : I.sr.s < 2 ^ 63) {phi phi' : Nat → Option (Nat × Bool)}
    (hphi : ∀ v, v < T.length → Agrees (phi v) (phi' v) (fun r => r.1 < T.length)) {r : Range} {k : Nat} (hr : r.stop ≤ T.length)
    (hk : k < T.length) : Agrees (I.phiForRange phi r k) (I.phiForRange64 phi' r k) (fun _ => True) := by
  have hS := h.sr.rangeSim hn hs hphi
  unfold SrIndexValid.phiForRange SrIndexValid.phiForRange64
  refine Agrees.ite (fun hlt => ?_) fun _ => Agrees.pure trivial
  exact hS.backRangeV hn (h.sr.split64 hn hlt hr) hk

theorem OK.phiMark64 (h : I.OK T sa K V) (hn : Fits T.length) (v : Nat) (hv : v < T.length) :
    Agrees (I.phiMark v) (I.phiMark64 v) (fun r => r.1 < T.length) :=
  h.sr.nav.phiWith64 hn (by rw [h.sr.marks]; simp) h.sr.samples_lt hv

theorem OK.phiArea64 (h : I.OK T sa K V) (hn : Fits T.length) (v : Nat) (hv : v < T.length) :
    Agrees (I.phiArea v) (I.phiArea64 v) (fun r => r.1 < T.length) :=
  h.sr.nav.phiWith64 hn (by rw [h.sr.marks]; simp) h.sr.samples_lt hv

end SrIndexValid
end
end Sri

import Verif.Proofs.Base
import Verif.Model.RIndex
import Mathlib.Data.Nat.ModEq
/-! # RIndex: backward search, toehold, phi -/
namespace Sri
set_option autoImplicit false

/-- the symbols a pattern may use: those of the text, the terminator excluded -/
def PatSym (T : List Nat) (c : Nat) : Prop := c ∈ T ∧ c ≠ 0

/-- a pattern with a non-empty range is shorter than the text -/
theorem pattern_len {T sa Q : List Nat} (hT : IsText T) (hQ : ∀ c ∈ Q, c ≠ 0) {a b : Nat}
    (h : IsRange Q T sa a b) (hab : a < b) : Q.length < T.length := by
  have hm := (h.2.2 a).2 ⟨Nat.le_refl _, hab⟩
  obtain ⟨h1, h2⟩ := hm.2
  by_contra hc
  have hn := hT.pos
  have h3 : saAt sa a = 0 ∧ Q.length = T.length := by omega
  rw [h3.1, h3.2, List.drop_zero, List.take_length] at h2
  obtain ⟨u, rfl, _⟩ := hT
  exact hQ 0 (by rw [← h2]; simp) rfl

/-- a non-empty pattern without terminator never matches at suffix-array position 0 -/
theorem range_pos {T sa Q : List Nat} (hT : IsText T) (hsa : IsSA T sa) (hne : Q ≠ []) (hQ : ∀ c ∈ Q, c ≠ 0) {a b : Nat}
    (h : IsRange Q T sa a b) (hab : a < b) : 1 ≤ a := by
  by_contra hc
  have h0 : a = 0 := by omega
  subst h0
  have hm := (h.2.2 0).2 ⟨Nat.le_refl _, hab⟩
  have hz := sa_zero hT hsa
  have hn := hT.pos
  obtain ⟨h1, h2⟩ := hm.2
  rw [hz] at h1 h2
  have hl := List.length_pos_iff.2 hne
  have hq1 : Q.length = 1 := by omega
  obtain ⟨u, rfl, _⟩ := hT
  rw [hq1] at h2
  simp at h2
  exact hQ 0 (by rw [← h2]; simp) rfl

namespace RIndex
variable {I : RIndex} {T sa : List Nat}

/-- what the navigation members of a built index hold, relative to the compacted text -/
structure NavOK (I : RIndex) (T sa : List Nat) : Prop where
  text : IsText T
  isSA : IsSA T sa
  n : I.n = T.length
  C : ∀ c ∈ T, I.alphabet.C[c]? = some (cumC T c)
  rle : RleBwt I.bwtRle T sa

/-- what the members of a built RIndex hold, relative to the compacted text -/
structure OK (I : RIndex) (T sa : List Nat) : Prop extends I.NavOK T sa where
  samples : I.samples = tailPos T sa
  marks : I.marks = (List.range T.length).map (fun i => decide (i ∈ headPos T sa))
  links : I.markToSample = (sortIndices (headPos T sa)).map (fun k => (k + nrun T sa - 1) % nrun T sa)

/-- one backward-search step -/
theorem NavOK.lf_eq (h : I.NavOK T sa) {a b c k : Nat} (hc : c ∈ T) (hab : a < b) (hb : b ≤ T.length) (hk : k < nrun T sa)
    (h1 : hd T sa k ≤ b - 1) (h2 : b - 1 ≤ tl T sa k) :
    ∃ s, I.lf ⟨a, b⟩ c = some { start := s, stop :=
        { value := cumC T c + cnt T sa c b, rank := Rep.crank (runsOf T sa) c (k+1), cover := decide (bwtAt T sa (b-1) = c) } } ∧
      s.value = cumC T c + cnt T sa c a := by
  obtain ⟨m, hm, h3, h4⟩ := run_find (sa := sa) (show a < T.length by omega)
  refine ⟨{ value := cnt T sa c a + cumC T c, rank := Rep.crank (runsOf T sa) c (m+1), cover := decide (bwtAt T sa a = c) }, ?_,
    by dsimp only; omega⟩
  unfold RIndex.lf
  simp only [csub, show 1 ≤ b by omega, if_true, Option.bind_eq_bind, Option.bind_some, h.rle.rankReport hc hm h3 h4,
    h.rle.rankReport hc hk h1 h2, h.C c hc]
  have e := cnt_succ (T := T) (sa := sa) c (b-1)
  rw [Nat.sub_add_cancel (show 1 ≤ b by omega)] at e
  change some _ = some _
  congr 2
  by_cases hx : bwtAt T sa (b-1) = c
  · simp only [hx, decide_true, if_true, DataLF.mk.injEq, and_true] at e ⊢; omega
  · simp only [hx, decide_false, if_false, DataLF.mk.injEq, and_true] at e ⊢; simp; omega

/-- a set of functors that navigates as RIndex does -/
structure Navigates {δ : Type} (F : Functors Range RangeLF δ) (I : RIndex) : Prop where
  lf : F.lf = I.lf
  toRange : F.toRange = RIndex.toRange
  bwtSize : F.bwtSize = I.n
  fullRange : F.fullRange = fun n => ⟨0, n⟩
  isEmpty : F.isEmpty = fun r => !decide (r.start < r.stop)
  bounds : F.bounds = fun r => (r.start, r.stop)

theorem NavOK.backSearchOf (h : I.NavOK T sa) {δ : Type} {F : Functors Range RangeLF δ} (hF : Navigates F I) :
    BackSearch F T sa (· ∈ T) where
  full := by rw [hF.bounds, hF.fullRange, hF.bwtSize]; dsimp only; rw [h.n]
  empty := fun r => by rw [hF.isEmpty, hF.bounds]
  lf := by
    rintro ⟨a, b⟩ c hc hab hb
    rw [hF.bounds] at hab hb ⊢
    change a < b at hab
    change b ≤ T.length at hb
    obtain ⟨k, hk, h1, h2⟩ := run_find (sa := sa) (show b - 1 < T.length by omega)
    obtain ⟨s, e1, e2⟩ := h.lf_eq hc hab hb hk h1 h2
    refine ⟨_, by rw [hF.lf]; exact e1, ?_⟩
    rw [hF.toRange]
    simp only [RIndex.toRange, e2]

theorem navigates_functors (I : RIndex) : Navigates I.functors I := ⟨rfl, rfl, rfl, rfl, rfl, rfl⟩

theorem OK.backSearchAll (h : I.OK T sa) : BackSearch I.functors T sa (· ∈ T) := h.backSearchOf (navigates_functors I)

theorem OK.backSearch (h : I.OK T sa) : BackSearch I.functors T sa (PatSym T) :=
  h.backSearchAll.mono (fun _ h => h.1)

/-- toehold data: the run whose tail travels to the last position of the range. `den d q` says that `d` names run `q`. -/
def THof {β : Type} (den : β → Nat → Prop) (T sa : List Nat) (Q : List Nat) (i : Nat) (r : Range) (d : StepData β) : Prop :=
  ∃ q, den d.run q ∧ q < nrun T sa ∧ i ≤ d.step ∧ d.step < i + Q.length ∧
    lfIt T sa (d.step - i + 1) (tl T sa q) + 1 = r.stop

/-- the rank that a step reports names the run of the last matching character: either the character of the last position differs,
    or the range ends at a run tail -/
theorem NavOK.last_tail (h : I.NavOK T sa) {a b c : Nat} {nr : RangeLF} (hc : c ∈ T) (hab : a < b) (hb : b ≤ T.length)
    (hlf : I.lf ⟨a, b⟩ c = some nr) (hcase : nr.stop.cover = false ∨ b = T.length)
    (hne : nr.start.value < nr.stop.value) :
    ∃ q, q < nrun T sa ∧ I.bwtRle.selectOnRuns nr.stop.rank c = some q ∧ lfAt T sa (tl T sa q) + 1 = nr.stop.value := by
  obtain ⟨k, hk, h1, h2⟩ := run_find (sa := sa) (show b - 1 < T.length by omega)
  obtain ⟨s, e1, e2⟩ := h.lf_eq hc hab hb hk h1 h2
  rw [hlf, Option.some_inj] at e1
  subst e1
  dsimp only at hcase hne
  rw [e2] at hne
  obtain ⟨j, hj1, hj2, hj3⟩ := cnt_lt_exists (show cnt T sa c a < cnt T sa c b by omega)
  obtain ⟨m, hm, g1, g2⟩ := run_find (sa := sa) (show j < T.length by omega)
  have hmk : m ≤ k := by
    by_contra hcon
    have := rstart_mono (runsOf T sa) (show k + 1 ≤ m by omega)
    rw [← hd, ← hd, ← tl_succ hk] at this
    omega
  obtain ⟨q, hq, f1, f2, f3⟩ := h.rle.last_run hc hk hmk (by rw [← bwt_run hm g1 g2]; exact hj3)
  have ht : tl T sa q < b := by
    rcases Nat.lt_or_eq_of_le hq with hlt | rfl
    · have := tl_succ (show q < nrun T sa by omega)
      have h5 := rstart_mono (runsOf T sa) (show q + 1 ≤ k by omega)
      rw [← hd, ← hd] at h5
      omega
    · rcases hcase with hcov | hbn
      · have : bwtAt T sa (b-1) = c := by rw [bwt_run hk h1 h2, f2]
        simp [this] at hcov
      · rw [hbn]; exact tl_lt hk
  have := tail_last h.text h.isSA hk hq f2 f3 (by omega) ht
  exact ⟨q, by omega, f1, by dsimp only; omega⟩

/-- `create` records run data that name the run found by the step -/
def Creates {β : Type} (I : RIndex) (T sa : List Nat) (den : β → Nat → Prop)
    (create : Range → Nat → RangeLF → Nat → Option (StepData β)) : Prop :=
  ∀ range c nr step, ∃ run, create range c nr step = some { step := step, run := run } ∧
    ∀ q, I.bwtRle.selectOnRuns nr.stop.rank c = some q → lfAt T sa (tl T sa q) + 1 = nr.stop.value → den run q

theorem NavOK.create (h : I.NavOK T sa) {β : Type} {den : β → Nat → Prop}
    {create : Range → Nat → RangeLF → Nat → Option (StepData β)} (hcr : Creates I T sa den create)
    {a b c i : Nat} {nr : RangeLF} (hc : c ∈ T) (hab : a < b) (hb : b ≤ T.length)
    (hlf : I.lf ⟨a, b⟩ c = some nr) (hcase : nr.stop.cover = false ∨ b = T.length)
    (Q : List Nat) :
    ∃ d, create ⟨a, b⟩ c nr i = some d ∧ (nr.start.value < nr.stop.value → THof den T sa (c :: Q) i (toRange nr) d) := by
  obtain ⟨run, e1, e2⟩ := hcr ⟨a, b⟩ c nr i
  refine ⟨_, e1, fun hne => ?_⟩
  obtain ⟨q, f1, f2, f3⟩ := h.last_tail hc hab hb hlf hcase hne
  refine ⟨q, e2 q f2 f3, f1, Nat.le_refl _, by simp, ?_⟩
  simp only [Nat.sub_self, Nat.zero_add, toRange]
  rw [lfIt_succ, lfIt_zero]; exact f3

theorem NavOK.toeholdAllOf (h : I.NavOK T sa) {β : Type} {den : β → Nat → Prop}
    {create : Range → Nat → RangeLF → Nat → Option (StepData β)} (hcr : Creates I T sa den create)
    {F : Functors Range RangeLF (StepData β)} (hF : Navigates F I) (hup : F.update = updateToehold lfTrivial create)
    (hinit : ∀ k, (F.initial k).step = 0) :
    Toehold F T sa (· ∈ T) (THof den T sa) where
  first := by
    intro c i k nr hc hlf
    have hn := h.text.pos
    rw [hF.lf, hF.fullRange, hF.bwtSize] at hlf
    dsimp only at hlf
    rw [h.n] at hlf
    obtain ⟨d, e1, e2⟩ := h.create hcr (i := i) hc hn (Nat.le_refl _) hlf (Or.inr rfl) []
    refine ⟨d, ?_, ?_⟩
    · rw [hup, hF.fullRange, hF.bwtSize]
      simp only [updateToehold, hinit, decide_true, Bool.true_or, if_true, h.n]
      exact e1
    · rw [hF.toRange, hF.bounds]; exact e2
  step := by
    rintro Q c i ⟨a, b⟩ nr d hc hr hab hth hlf
    rw [hF.bounds] at hab hr
    change a < b at hab
    have hb : b ≤ T.length := hr
    rw [hF.lf] at hlf
    rw [hup, hF.toRange, hF.bounds]
    have hth0 := hth
    obtain ⟨q, t1, t2, t3, t4, t5⟩ := hth
    simp only [updateToehold]
    rw [show decide (d.step = 0) = false by simp; omega, Bool.false_or]
    by_cases htr : lfTrivial ⟨a, b⟩ c nr = true
    · refine ⟨d, by simp [htr], ?_⟩
      intro hne
      change nr.start.value < nr.stop.value at hne
      have hcov : nr.stop.cover = true := by
        simp only [lfTrivial, hne, decide_true, Bool.not_true, Bool.false_or] at htr; exact htr
      refine ⟨q, t1, t2, by omega, by simp; omega, ?_⟩
      obtain ⟨k, hk, h1, h2⟩ := run_find (sa := sa) (show b - 1 < T.length by omega)
      obtain ⟨s, e1, e2⟩ := h.lf_eq hc hab hb hk h1 h2
      rw [hlf, Option.some_inj] at e1
      subst e1
      have hbc : bwtAt T sa (b-1) = c := by simpa using hcov
      change lfIt T sa (d.step - i + 1) (tl T sa q) + 1 = cumC T c + cnt T sa c b
      change lfIt T sa (d.step - (i+1) + 1) (tl T sa q) + 1 = b at t5
      rw [show d.step - i + 1 = (d.step - (i+1) + 1) + 1 by omega, lfIt_succ,
        show lfIt T sa (d.step - (i+1) + 1) (tl T sa q) = b - 1 by omega]
      exact lf_last h.text h.isSA hb (by omega) hbc (fun j h1 h2 => by omega)
    · have hcov : nr.start.value < nr.stop.value → nr.stop.cover = false := by
        intro hne
        simp only [lfTrivial, hne, decide_true, Bool.not_true, Bool.false_or] at htr
        simpa using htr
      obtain ⟨run, g1, g2⟩ := hcr ⟨a, b⟩ c nr i
      refine ⟨{ step := i, run := run }, by simp [htr, g1], ?_⟩
      intro hne
      change nr.start.value < nr.stop.value at hne
      obtain ⟨d', e1, e2⟩ := h.create hcr (i := i) hc hab hb hlf (Or.inl (hcov hne)) Q
      rw [g1, Option.some_inj] at e1
      subst e1
      exact e2 hne

theorem NavOK.toeholdOf (h : I.NavOK T sa) {β : Type} {den : β → Nat → Prop}
    {create : Range → Nat → RangeLF → Nat → Option (StepData β)} (hcr : Creates I T sa den create)
    {F : Functors Range RangeLF (StepData β)} (hF : Navigates F I) (hup : F.update = updateToehold lfTrivial create)
    (hinit : ∀ k, (F.initial k).step = 0) :
    Toehold F T sa (PatSym T) (THof den T sa) :=
  (h.toeholdAllOf hcr hF hup hinit).mono (fun _ h => h.1)

theorem mod_back {n v w k : Nat} (hw : w < n) (hk : k ≤ n) (h : (w + k) % n = v % n) : (v + n - k) % n = w := by
  have h1 : (v + n - k + k) % n = (w + k) % n := by
    rw [show v + n - k + k = v + n by omega, Nat.add_mod_right, h]
  have h2 := Nat.ModEq.add_right_cancel' (n := n) k h1
  rw [Nat.ModEq, Nat.mod_eq_of_lt hw] at h2
  exact h2

/-- the toehold is the suffix-array value of the last position of the range, when the value of the recorded run's tail is right -/
theorem NavOK.toehold_of (h : I.NavOK T sa) {β : Type} {den : β → Nat → Prop} {getV : β → Option Nat}
    (hv : ∀ d q, q < nrun T sa → den d q → ∃ v, getV d = some v ∧ v % T.length = saAt sa (tl T sa q) % T.length)
    {Q : List Nat} {r : Range} {d : StepData β}
    (hth : THof den T sa Q 0 r d) (hQ : d.step < T.length) :
    computeToehold getV I.bwtRle.size d = some (saAt sa (r.stop - 1)) := by
  obtain ⟨q, t1, t2, t3, t4, t5⟩ := hth
  have hn := h.text.pos
  obtain ⟨v, e1, e2⟩ := hv d.run q t2 t1
  unfold computeToehold
  have hlt := tl_lt t2
  rw [Nat.sub_zero] at t5
  have e := sa_lfIt_mod h.isSA hlt (d.step + 1)
  rw [show lfIt T sa (d.step + 1) (tl T sa q) = r.stop - 1 by omega] at e
  have hw : saAt sa (r.stop - 1) < T.length := by
    apply saAt_lt h.isSA
    have := lfIt_lt (T := T) h.isSA (d.step + 1) hlt; omega
  simp only [e1, Option.bind_eq_bind, Option.bind_some, h.rle.size]
  rw [csub, if_pos (by omega), Option.bind_some, csub, if_pos (by omega), Option.bind_some, cmod, if_neg (by omega)]
  congr 1
  rw [show v + T.length - d.step - 1 = v + T.length - (d.step + 1) by omega]
  refine mod_back hw (by omega) ?_
  rw [e2, e, Nat.mod_eq_of_lt (saAt_lt h.isSA hlt)]

/-- RIndex's run data name the run by rank among the runs of its symbol -/
def den (I : RIndex) (d : RunData) (q : Nat) : Prop := I.bwtRle.selectOnRuns d.lastRunRnk d.c = some q

abbrev TH (I : RIndex) (T sa : List Nat) := THof (den I) T sa

theorem creates : Creates I T sa (den I) createData :=
  fun _ c nr _ => ⟨{ c := c, lastRunRnk := nr.stop.rank }, rfl, fun _ h _ => h⟩

theorem OK.toeholdSpec (h : I.OK T sa) : Toehold I.functors T sa (PatSym T) (TH I T sa) :=
  h.toeholdOf creates (navigates_functors I) rfl (fun _ => rfl)

/-- the toehold is the suffix-array value of the last position of the range -/
theorem OK.toehold_eq (h : I.OK T sa) {Q : List Nat} {r : Range} {d : StepData RunData} (hth : TH I T sa Q 0 r d)
    (hQ : d.step < T.length) : I.toehold d = some (saAt sa (r.stop - 1)) := by
  refine h.toehold_of ?_ hth hQ
  intro d q hq hden
  refine ⟨pv T sa (tl T sa q) + 1, ?_, ?_⟩
  · have hden : I.bwtRle.selectOnRuns d.lastRunRnk d.c = some q := hden
    simp only [saValueOfRun, hden, Option.bind_eq_bind, Option.bind_some, h.samples, tailPos_get hq]; rfl
  · have hn := h.text.pos
    have hlt := saAt_lt h.isSA (tl_lt hq)
    rw [pv, Nat.mod_add_mod, show saAt sa (tl T sa q) + T.length - 1 + 1 = saAt sa (tl T sa q) + T.length by omega,
      Nat.add_mod_right]

/-- **phi**: from the value at a position to the value at the previous position -/
theorem OK.phi_eq (h : I.OK T sa) {i : Nat} (h1 : 1 ≤ i) (hi : i < T.length) :
    I.phi (saAt sa i) = some (saAt sa (i-1), true) := by
  have hn := h.text.pos
  have hlast := sa_ne_last h.text h.isSA h1 hi
  obtain ⟨o, k, hk, e1, e2, -, e4⟩ := pred_marks (headPos_nodup h.isSA) (headPos_lt hn) (headPos_ne (sa := sa) hn)
    (v := saAt sa i) (by omega)
  have hk' : k < nrun T sa := by rw [← headPos_length (T := T) (sa := sa)]; exact hk
  have hval : (headPos T sa)[k] = pv T sa (hd T sa k) := by
    have := headPos_get hk'; rw [List.getElem?_eq_getElem hk] at this; simpa using this
  have hM : (fun x => x ∈ headPos T sa) = HeadMark T sa := by funext x; exact propext mem_headPos
  rw [hM] at e4
  obtain ⟨d, f1, f2, f3, f4, f5, f6⟩ := phi_back h.text h.isSA h1 hi e4
  have hkd : lfIt T sa d i = hd T sa k := pv_inj h.isSA f2.1 (hd_lt hk') (by rw [f4, hval])
  have hk1 : 1 ≤ k := by
    by_contra hc
    rw [show k = 0 by omega, hd_zero] at hkd; omega
  have hidx : (k + nrun T sa - 1) % nrun T sa = k - 1 := by
    rw [show k + nrun T sa - 1 = (k - 1) + nrun T sa by omega, Nat.add_mod_right, Nat.mod_eq_of_lt (by omega)]
  have htl : tl T sa (k-1) = lfIt T sa d i - 1 := by
    have := tl_succ (show k - 1 < nrun T sa by omega)
    rw [Nat.sub_add_cancel hk1] at this; omega
  unfold phi phiBackward
  have hpr : I.predecessor (saAt sa i) = some (o, (headPos T sa)[k]) := by
    unfold predecessor; rw [h.marks, h.n]; exact e1
  simp only [h.n, csub, show 1 ≤ T.length by omega, if_true, Option.bind_eq_bind, Option.bind_some, assertC,
    show saAt sa i ≠ T.length - 1 by omega, ne_eq, not_false_eq_true, decide_true, hpr, f1]
  have hg : getSampleForPhi (fun i => (I.markToSample[i]?).map (fun k => (k, true))) (fun k => I.samples[k]?) validatorDefault o (d+1)
      = some (pv T sa (tl T sa (k-1)), true) := by
    unfold getSampleForPhi validatorDefault
    simp only [h.links, List.getElem?_map, e2, Option.map_some, Option.bind_eq_bind, Option.bind_some, hidx, h.samples,
      tailPos_get (show k - 1 < nrun T sa by omega)]
    rfl
  rw [hg]
  simp only [Option.bind_some, cmod, show T.length ≠ 0 by omega, if_false]
  rw [htl, f6]; rfl

theorem OK.phiLoop_eq (h : I.OK T sa) (len : Nat) {b : Nat} (h1 : len ≤ b) (hb : b < T.length) :
    phiLoop I.phi len (saAt sa b) = some (((List.range' (b - len) len).map (saAt sa)).reverse) := by
  induction len generalizing b with
  | zero => rfl
  | succ len ih =>
    rw [phiLoop, h.phi_eq (by omega) hb]
    simp only [Option.bind_eq_bind, Option.bind_some]
    rw [ih (b := b-1) (by omega) (by omega)]
    simp only [Option.bind_some]
    rw [show b - (len + 1) = b - 1 - len by omega, List.range'_concat, List.map_append, List.reverse_append]
    simp only [List.map_cons, List.map_nil, List.reverse_singleton, Nat.one_mul, List.singleton_append]
    rw [show b - 1 - len + len = b - 1 by omega]; rfl

theorem OK.computeAll_eq (h : I.OK T sa) {Q : List Nat} {r : Range} {d : StepData RunData}
    (hr : IsRange Q T sa r.start r.stop) (_hne : Q ≠ []) (hQ : ∀ c ∈ Q, c ≠ 0) (hab : r.start < r.stop)
    (hth : TH I T sa Q 0 r d) :
    I.functors.computeAll r d = some (valuesDown sa r.start r.stop) := by
  have hlen := pattern_len h.text hQ hr hab
  have hb := hr.2.1
  simp only [functors, computeAllValues]
  have hst : d.step < T.length := by obtain ⟨q, -, -, -, h4, -⟩ := hth; omega
  rw [h.toehold_eq hth hst]
  simp only [Option.bind_eq_bind, Option.bind_some, shrink, csub, show 1 ≤ r.stop by omega, if_true]
  change (phiForRange I { start := r.start, stop := r.stop - 1 } (saAt sa (r.stop - 1))).bind _ = _
  unfold phiForRange
  rw [h.phiLoop_eq _ (by dsimp only; omega) (by omega)]
  dsimp only
  rw [Option.bind_some, valuesDown]
  rw [show r.stop - r.start = (r.stop - 1 - r.start) + 1 by omega, List.range'_concat, List.map_append, List.reverse_append]
  simp only [List.map_cons, List.map_nil, List.reverse_singleton, Nat.one_mul, List.singleton_append]
  rw [show r.stop - 1 - (r.stop - 1 - r.start) = r.start by omega,
    show r.start + (r.stop - 1 - r.start) = r.stop - 1 by omega]
  rfl

/-- construction establishes the invariant over the compacted text -/
theorem build_ok (hT : IsText T) (hsa : IsSA T sa) :
    ∃ I T', RIndex.build T sa = some I ∧ I.OK T' sa ∧ Compact T sa I.alphabet T' := by
  obtain ⟨b, T', hb, ok⟩ := base_build hT hsa
  have hc := ok.compact
  have hn' : 0 < T'.length := hc.text.pos
  have hC := hc.C b.alphabet.sigma (Nat.le_refl _)
  have hCn : cumC T' b.alphabet.sigma = T'.length := by
    rw [cumC, List.countP_eq_length]
    intro c hcm; simpa using hc.lt c hcm
  refine ⟨{ alphabet := b.alphabet, bwtRle := b.bwtRle, samples := tailPos T' sa,
            marks := (List.range T'.length).map (fun i => decide (i ∈ headPos T' sa)),
            markToSample := (linksPhiBackward (headPos T' sa)).2, n := T'.length }, T', ?_, ?_, hc⟩
  · unfold build
    simp only [hb, Option.bind_eq_bind, Option.bind_some, ok.firstTextPos, ok.lastTextPos, ok.n,
      bitVector_eq (headPos_lt hn'), hC, hCn]
    rfl
  · refine ⟨⟨hc.text, hc.isSA, rfl, fun c h => hc.C c (Nat.le_of_lt (hc.lt c h)), ok.rle⟩, rfl, rfl, ?_⟩
    simp [linksPhiBackward, headPos_length]

end RIndex
end Sri

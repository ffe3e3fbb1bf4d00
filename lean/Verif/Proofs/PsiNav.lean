import Verif.Proofs.PhiForward
import Verif.Proofs.PsiText
import Verif.Proofs.PsiCoreRuns
import Verif.Proofs.PsiSorted
import Verif.Proofs.BackIndex
import Verif.Model.RCSA
/-! # Backward search over psi, and the toehold of the indexes that report forward -/
namespace Sri
set_option autoImplicit false

/-- index of a run among the runs of its symbol -/
def symIdx (T sa : List Nat) (q : Nat) : Nat := symbolRunsBefore (bwtSeq T sa) (sy T sa q) (hd T sa q)

theorem run_of_isRun {T sa : List Nat} {a b c : Nat} (h : IsRun (bwtSeq T sa) a b c) :
    ∃ q, q < nrun T sa ∧ a = hd T sa q ∧ b = tl T sa q + 1 ∧ sy T sa q = c := by
  obtain ⟨q, hq, h1, h2, h3⟩ := (isRun_iff _ _ _ _).1 h
  have hq' : q < nrun T sa := hq
  exact ⟨q, hq', h1, by rw [tl_succ hq']; exact h2, by rw [sy_eq hq']; exact h3.symm⟩

theorem isRun_run {T sa : List Nat} {q : Nat} (hq : q < nrun T sa) : IsRun (bwtSeq T sa) (hd T sa q) (tl T sa q + 1) (sy T sa q) :=
  (isRun_iff _ _ _ _).2 ⟨q, hq, rfl, by rw [tl_succ hq]; rfl, sy_eq hq⟩

namespace PsiNav
variable {N : PsiNav} {T sa : List Nat}

/-- what the navigation members hold, relative to the compacted text -/
structure OK (N : PsiNav) (T sa : List Nat) : Prop where
  text : IsText T
  isSA : IsSA T sa
  n : N.n = T.length
  C : ∀ c, c ≤ N.alphabet.sigma → N.alphabet.C[c]? = some (cumC T c)
  lt : ∀ c ∈ T, c < N.alphabet.sigma
  core : PsiOK N.psi (bwtSeq T sa) N.alphabet.sigma 32
  dense : Dense (bwtSeq T sa) N.alphabet.sigma
  psiFn : ∀ i, i < T.length → N.psiAt i = some (Sri.psiAt T sa i)

theorem OK.size (h : N.OK T sa) : N.psi.n = T.length := by rw [h.core.n, bwtSeq_length]

/-- rank reports the run that contains the position, or else the next one of the symbol -/
theorem OK.rank (h : N.OK T sa) {c a : Nat} (hc : c ∈ T) (ha : a ≤ T.length) :
    ∃ s e k, N.psiRank c a = some { value := cnt T sa c a, rstart := s, rstop := e, rank := k } ∧
      (∀ j, a ≤ j → j < T.length → bwtAt T sa j = c → ∃ q, q < nrun T sa ∧ s = hd T sa q ∧ e = tl T sa q + 1 ∧ sy T sa q = c ∧
        k = symIdx T sa q ∧ a ≤ tl T sa q ∧ ∀ i, a ≤ i → i < hd T sa q → bwtAt T sa i ≠ c) := by
  have hcs := h.lt c hc
  obtain ⟨k, k1, k2, k3, k4⟩ := h.core.rankReport (c := c) (v := a) hcs (by rw [bwtSeq_length]; exact ha) rfl
  refine ⟨_, _, _, by rw [psiRank, k4]; simp only [Option.bind_eq_bind, Option.bind_some, bwtSeq_take c a ha]; rfl, ?_⟩
  intro j hj1 hj2 hj3
  rw [bwtSeq_length, if_neg (by omega)] at k2 k3
  have hout : ∀ i, a ≤ i → i < rS (symRuns (rle (bwtSeq T sa)) c) (bwtSeq T sa).length k → bwtAt T sa i ≠ c := by
    intro i hi1 hi2 he
    have hiT : i < T.length := by
      have := (symRuns_good' (bwtSeq T sa) c).S_le k; rw [bwtSeq_length] at this hi2; omega
    refine (symRuns_covers' (bwtSeq T sa) c).outside (symRuns_good' _ _) (k := k) (j := i) ?_ hi2 ?_
    · intro m hm; have := k3 m hm; rw [bwtSeq_length]; omega
    · rw [bwtSeq_get hiT, he]
  have hk : k < (symRuns (rle (bwtSeq T sa)) c).length := by
    by_contra hcon
    have : rS (symRuns (rle (bwtSeq T sa)) c) (bwtSeq T sa).length k = T.length := by rw [rS_ge (by omega), bwtSeq_length]
    exact hout j hj1 (by rw [this]; exact hj2) hj3
  obtain ⟨r1, r2⟩ := symRuns_isRun (bwtSeq T sa) c hk (bwtSeq T sa).length
  obtain ⟨q, q1, q2, q3, q4⟩ := run_of_isRun r1
  refine ⟨q, q1, q2, q3, q4, ?_, ?_, ?_⟩
  · rw [symIdx, q4, ← q2, r2]
  · rw [bwtSeq_length] at q3; omega
  · rw [← q2]; exact hout

/-- one backward-search step -/
theorem OK.lf_eq (h : N.OK T sa) {a b c : Nat} (hc : c ∈ T) (hab : a ≤ T.length) (hb : b ≤ T.length) :
    ∃ nr, N.lf ⟨a, b⟩ c = some nr ∧ nr.start.value = cumC T c + cnt T sa c a ∧ nr.stop.value = cumC T c + cnt T sa c b ∧
      (∀ j, a ≤ j → j < T.length → bwtAt T sa j = c → ∃ q, q < nrun T sa ∧ nr.start.rstart = hd T sa q ∧
        nr.start.rstop = tl T sa q + 1 ∧ sy T sa q = c ∧ nr.start.rank = symIdx T sa q ∧ a ≤ tl T sa q ∧
        ∀ i, a ≤ i → i < hd T sa q → bwtAt T sa i ≠ c) := by
  obtain ⟨s, e, k, e1, e2⟩ := h.rank hc hab
  obtain ⟨s', e', k', f1, -⟩ := h.rank hc hb
  refine ⟨_, by simp only [lf, e1, f1, h.C c (Nat.le_of_lt (h.lt c hc)), Option.bind_eq_bind, Option.bind_some]; rfl, ?_, ?_, e2⟩
  · dsimp only; omega
  · dsimp only; omega

/-- a set of functors that navigates with psi -/
structure Navigates {δ : Type} (F : Functors Range RangeRunLF δ) (N : PsiNav) : Prop where
  lf : F.lf = N.lf
  toRange : F.toRange = PsiNav.toRange
  bwtSize : F.bwtSize = N.n
  fullRange : F.fullRange = fun n => ⟨0, n⟩
  isEmpty : F.isEmpty = fun r => !decide (r.start < r.stop)
  bounds : F.bounds = fun r => (r.start, r.stop)

theorem OK.backSearchOf (h : N.OK T sa) {δ : Type} {F : Functors Range RangeRunLF δ} (hF : Navigates F N) :
    BackSearch F T sa (· ∈ T) where
  full := by rw [hF.bounds, hF.fullRange, hF.bwtSize]; dsimp only; rw [h.n]
  empty := fun r => by rw [hF.isEmpty, hF.bounds]
  lf := by
    rintro ⟨a, b⟩ c hc hab hb
    rw [hF.bounds] at hab hb ⊢
    change a < b at hab
    change b ≤ T.length at hb
    obtain ⟨nr, e1, e2, e3, -⟩ := h.lf_eq hc (show a ≤ T.length by omega) hb
    refine ⟨nr, by rw [hF.lf]; exact e1, ?_⟩
    rw [hF.toRange]
    simp only [PsiNav.toRange, e2, e3]

/-- toehold data: the run whose head travels to the first position of the range. `den d q` says that `d` names run `q`. -/
def THof {β : Type} (den : β → Nat → Prop) (T sa : List Nat) (Q : List Nat) (i : Nat) (r : Range) (d : StepData β) : Prop :=
  ∃ q, den d.run q ∧ q < nrun T sa ∧ i ≤ d.step ∧ d.step < i + Q.length ∧
    lfIt T sa (d.step - i + 1) (hd T sa q) = r.start

/-- `create` records run data that name the run found by the step -/
def Creates {β : Type} (T sa : List Nat) (den : β → Nat → Prop)
    (create : Range → Nat → RangeRunLF → Nat → Option (StepData β)) : Prop :=
  ∀ range c nr step, ∃ run, create range c nr step = some { step := step, run := run } ∧
    ∀ q, q < nrun T sa → nr.start.rstart = hd T sa q → nr.start.rstop = tl T sa q + 1 → sy T sa q = c → nr.start.rank = symIdx T sa q →
      (range.start < hd T sa q ∨ range.start = 0) → den run q

/-- the run that a step reports starts with the first matching character: either the range starts before it, or at position 0 -/
theorem OK.first_head (h : N.OK T sa) {a b c : Nat} {nr : RangeRunLF} (hc : c ∈ T) (hab : a < b) (hb : b ≤ T.length)
    (hlf : N.lf ⟨a, b⟩ c = some nr) (hne : nr.start.value < nr.stop.value) :
    ∃ q, q < nrun T sa ∧ nr.start.rstart = hd T sa q ∧ nr.start.rstop = tl T sa q + 1 ∧ sy T sa q = c ∧ nr.start.rank = symIdx T sa q ∧
      a ≤ tl T sa q ∧ (a ≤ hd T sa q → lfAt T sa (hd T sa q) = nr.start.value) ∧ (hd T sa q ≤ a → lfAt T sa a = nr.start.value) := by
  obtain ⟨nr', e1, e2, e3, e4⟩ := h.lf_eq hc (show a ≤ T.length by omega) hb
  rw [hlf, Option.some_inj] at e1
  subst e1
  rw [e2, e3] at hne
  obtain ⟨j, hj1, hj2, hj3⟩ := cnt_lt_exists (show cnt T sa c a < cnt T sa c b by omega)
  obtain ⟨q, q1, q2, q3, q4, q5, q6, q7⟩ := e4 j hj1 (by omega) hj3
  refine ⟨q, q1, q2, q3, q4, q5, q6, ?_, ?_⟩
  · intro hle
    rw [e2]
    exact lf_first h.text h.isSA (hd_lt q1) hle (by rw [bwt_run q1 (Nat.le_refl _) (hd_le_tl q1), q4]) q7
  · intro hle
    rw [e2]
    exact lf_first h.text h.isSA (by omega) (Nat.le_refl _) (by rw [bwt_run q1 hle q6, q4]) (fun i h1 h2 => by omega)

theorem OK.create (h : N.OK T sa) {β : Type} {den : β → Nat → Prop}
    {create : Range → Nat → RangeRunLF → Nat → Option (StepData β)} (hcr : Creates T sa den create)
    {a b c i : Nat} {nr : RangeRunLF} (hc : c ∈ T) (hab : a < b) (hb : b ≤ T.length)
    (hlf : N.lf ⟨a, b⟩ c = some nr) (hcase : lfTrivial ⟨a, b⟩ c nr = false ∨ a = 0) (Q : List Nat) :
    ∃ d, create ⟨a, b⟩ c nr i = some d ∧ (nr.start.value < nr.stop.value → THof den T sa (c :: Q) i (toRange nr) d) := by
  obtain ⟨run, e1, e2⟩ := hcr ⟨a, b⟩ c nr i
  refine ⟨_, e1, fun hne => ?_⟩
  obtain ⟨q, q1, q2, q3, q4, q5, q6, q7, -⟩ := h.first_head hc hab hb hlf hne
  have hpos : a < hd T sa q ∨ a = 0 := by
    rcases hcase with h0 | h0
    · left
      by_contra hcon
      simp only [lfTrivial, hne, decide_true, Bool.not_true, Bool.false_or, q2, q3] at h0
      rw [show decide (a < hd T sa q) = false by simp; omega, show decide (a < tl T sa q + 1) = true by simp; omega] at h0
      simp at h0
    · exact Or.inr h0
  refine ⟨q, e2 q q1 q2 q3 q4 q5 hpos, q1, Nat.le_refl _, by simp, ?_⟩
  simp only [Nat.sub_self, Nat.zero_add, toRange]
  rw [lfIt_succ, lfIt_zero]
  exact q7 (by omega)

theorem OK.toeholdAllOf (h : N.OK T sa) {β : Type} {den : β → Nat → Prop}
    {create : Range → Nat → RangeRunLF → Nat → Option (StepData β)} (hcr : Creates T sa den create)
    {F : Functors Range RangeRunLF (StepData β)} (hF : Navigates F N) (hup : F.update = updateToehold lfTrivial create)
    (hinit : ∀ k, (F.initial k).step = 0) :
    Toehold F T sa (· ∈ T) (THof den T sa) where
  first := by
    intro c i k nr hc hlf
    have hn := h.text.pos
    rw [hF.lf, hF.fullRange, hF.bwtSize] at hlf
    dsimp only at hlf
    rw [h.n] at hlf
    obtain ⟨d, e1, e2⟩ := h.create hcr (i := i) hc hn (Nat.le_refl _) hlf (Or.inr rfl) []
    refine ⟨d, ?_, ?_⟩
    · rw [hup, hF.fullRange, hF.bwtSize]
      simp only [updateToehold, hinit, decide_true, Bool.true_or, if_true, h.n]
      exact e1
    · rw [hF.toRange, hF.bounds]; exact e2
  step := by
    rintro Q c i ⟨a, b⟩ nr d hc hr hab hth hlf
    rw [hF.bounds] at hab hr
    change a < b at hab
    have hb : b ≤ T.length := hr
    rw [hF.lf] at hlf
    rw [hup, hF.toRange, hF.bounds]
    have hth0 := hth
    obtain ⟨q, t1, t2, t3, t4, t5⟩ := hth
    simp only [updateToehold]
    rw [show decide (d.step = 0) = false by simp; omega, Bool.false_or]
    by_cases htr : lfTrivial ⟨a, b⟩ c nr = true
    · refine ⟨d, by simp [htr], ?_⟩
      intro hne
      change nr.start.value < nr.stop.value at hne
      refine ⟨q, t1, t2, by omega, by simp; omega, ?_⟩
      obtain ⟨p, p1, p2, p3, p4, p5, p6, -, p8⟩ := h.first_head hc hab hb hlf hne
      have hle : hd T sa p ≤ a := by
        simp only [lfTrivial, hne, decide_true, Bool.not_true, Bool.false_or, p2, p3, Bool.and_eq_true, Bool.not_eq_true',
          decide_eq_false_iff_not] at htr
        omega
      change lfIt T sa (d.step - i + 1) (hd T sa q) = nr.start.value
      change lfIt T sa (d.step - (i+1) + 1) (hd T sa q) = a at t5
      rw [show d.step - i + 1 = (d.step - (i+1) + 1) + 1 by omega, lfIt_succ, t5]
      exact p8 hle
    · obtain ⟨d', e1, e2⟩ := h.create hcr (i := i) hc hab hb hlf (Or.inl (by simpa using htr)) Q
      exact ⟨d', by simp [htr, e1], e2⟩

theorem OK.toeholdOf (h : N.OK T sa) {β : Type} {den : β → Nat → Prop}
    {create : Range → Nat → RangeRunLF → Nat → Option (StepData β)} (hcr : Creates T sa den create)
    {F : Functors Range RangeRunLF (StepData β)} (hF : Navigates F N) (hup : F.update = updateToehold lfTrivial create)
    (hinit : ∀ k, (F.initial k).step = 0) :
    Toehold F T sa (PatSym T) (THof den T sa) :=
  (h.toeholdAllOf hcr hF hup hinit).mono (fun _ h => h.1)

/-- the toehold is the suffix-array value of the first position of the range, when the value of the recorded run's head is right -/
theorem OK.toehold_of (h : N.OK T sa) {β : Type} {den : β → Nat → Prop} {getV : β → Option Nat}
    (hv : ∀ d q, q < nrun T sa → den d q → ∃ v, getV d = some v ∧ v % T.length = saAt sa (hd T sa q) % T.length)
    {Q : List Nat} {r : Range} {d : StepData β}
    (hth : THof den T sa Q 0 r d) (hQ : d.step < T.length) :
    computeToehold getV T.length d = some (saAt sa r.start) := by
  obtain ⟨q, t1, t2, t3, t4, t5⟩ := hth
  obtain ⟨v, e1, e2⟩ := hv d.run q t2 t1
  unfold computeToehold
  have hlt := hd_lt t2
  rw [Nat.sub_zero] at t5
  have e := sa_lfIt_mod h.isSA hlt (d.step + 1)
  rw [t5] at e
  have hw : saAt sa r.start < T.length := by
    rw [← t5]; exact saAt_lt h.isSA (lfIt_lt (T := T) h.isSA (d.step + 1) hlt)
  simp only [e1, Option.bind_eq_bind, Option.bind_some]
  rw [csub, if_pos (by omega), Option.bind_some, csub, if_pos (by omega), Option.bind_some, cmod, if_neg (by omega)]
  congr 1
  rw [show v + T.length - d.step - 1 = v + T.length - (d.step + 1) by omega]
  refine RIndex.mod_back hw (by omega) ?_
  rw [e2, e, Nat.mod_eq_of_lt (saAt_lt h.isSA hlt)]

theorem THof.step_lt {β : Type} {den : β → Nat → Prop} {Q : List Nat} {r : Range} {d : StepData β} (h : THof den T sa Q 0 r d)
    (hQ : Q.length ≤ T.length) : d.step < T.length := by
  obtain ⟨q, -, -, -, h4, -⟩ := h; omega

/-- the value of a sample plus one is the suffix-array entry, modulo `n` -/
theorem pv_succ_mod (hsa : IsSA T sa) {i : Nat} (h : i < T.length) : (pv T sa i + 1) % T.length = saAt sa i % T.length := by
  have hlt := saAt_lt hsa h
  rw [pv, Nat.mod_add_mod, show saAt sa i + T.length - 1 + 1 = saAt sa i + T.length by omega, Nat.add_mod_right]

variable {T' : List Nat} {β : Type}

/-- absent characters in an index that navigates with psi -/
theorem OK.absentAnswered (h : N.OK T' sa) (hc : Compact T sa N.alphabet T') {F : Functors Range RangeRunLF (StepData β)}
    (hF : Navigates F N) (hg : F.getSymbol = N.alphabet.char2comp) {den : β → Nat → Prop}
    {create : Range → Nat → RangeRunLF → Nat → Option (StepData β)} (hcr : Creates T' sa den create)
    (hup : F.update = updateToehold lfTrivial create) (hinit : ∀ k, (F.initial k).step = 0)
    (hout : ∀ r d, r.start = 0 → r.stop = 1 → THof den T' sa [0] 0 r d → F.computeAll r d = some [T'.length - 1]) :
    AbsentAnswered F.count F.locate T := by
  refine Sri.absentAnswered hc hg (h.backSearchOf hF) ?_
  intro k nr hlf hb
  have hn := h.text.pos
  have h0 : (0 : Nat) ∈ T' := by obtain ⟨u, rfl, _⟩ := hc.text; simp
  rw [hF.lf, hF.fullRange, hF.bwtSize] at hlf
  dsimp only at hlf
  rw [h.n] at hlf
  rw [hF.toRange, hF.bounds] at hb
  have b1 : nr.start.value = 0 := congrArg Prod.fst hb
  have b2 : nr.stop.value = 1 := congrArg Prod.snd hb
  obtain ⟨d, e1, e2⟩ := h.create hcr (i := 0) h0 hn (Nat.le_refl _) hlf (Or.inr rfl) []
  refine ⟨d, ?_, ?_⟩
  · rw [hup, hF.fullRange, hF.bwtSize]
    simp only [updateToehold, hinit, decide_true, Bool.true_or, if_true, h.n]
    exact e1
  · rw [hF.toRange]
    exact hout _ _ b1 b2 (e2 (by omega))

/-- a toehold read off the recorded step -/
theorem OK.toehold_search (h : N.OK T' sa) (hc : Compact T sa N.alphabet T') {F : Functors Range RangeRunLF (StepData β)}
    (hF : Navigates F N) (hg : F.getSymbol = N.alphabet.char2comp) {den : β → Nat → Prop}
    {create : Range → Nat → RangeRunLF → Nat → Option (StepData β)} (hcr : Creates T' sa den create)
    (hup : F.update = updateToehold lfTrivial create) (hinit : ∀ k, (F.initial k).step = 0)
    {toehold : StepData β → Option Nat}
    (ht : ∀ Q r d, THof den T' sa Q 0 r d → d.step < T'.length → toehold d = some (saAt sa r.start))
    {P : List Nat} (hP : IsPattern P T) (k : Nat) :
    ∃ r d, F.locateLoop P.reverse (F.fullRange F.bwtSize) (F.initial k) = some (r, d) ∧ IsInterval P T sa r.start r.stop ∧
      (r.start < r.stop → toehold d = sa[r.start]?) := by
  obtain ⟨r, d, e1, e2, e3, e4⟩ := search_toehold hc hg ((h.backSearchOf hF).mono (fun _ h => h.1)) (h.toeholdOf hcr hF hup hinit) hP k
  rw [hF.bounds] at e2 e3 e4
  refine ⟨r, d, e1, e2, fun hlt => ?_⟩
  obtain ⟨h1, h2⟩ := e4 hlt
  have hst : d.step < T'.length := h1.step_lt (by rw [List.length_map]; omega)
  rw [ht _ _ _ h1 hst]
  have hb2 : r.stop ≤ T'.length := e3.2.1
  have hl : r.start < sa.length := by rw [h.isSA.length]; omega
  rw [List.getElem?_eq_getElem hl]
  simp [saAt, List.getD_eq_getElem?_getD, List.getElem?_eq_getElem hl]

/-- the navigation members after construction -/
theorem ok_of_items {b : BaseItems} {p : PsiItems} (hb : BaseOK T sa T' b) (hp : PsiItemsOK T' sa b.alphabet.sigma p) :
    b.alphabet.C[b.alphabet.sigma]? = some T'.length ∧
    PsiNav.OK { alphabet := b.alphabet, psi := p.core, n := T'.length } T' sa := by
  have hc := hb.compact
  have hC := hc.C b.alphabet.sigma (Nat.le_refl _)
  have hCn : cumC T' b.alphabet.sigma = T'.length := by
    rw [cumC, List.countP_eq_length]
    intro c hcm; simpa using hc.lt c hcm
  refine ⟨by rw [hC, hCn], hc.text, hc.isSA, rfl, hc.C, hc.lt, hp.core, hc.dense, ?_⟩
  intro i hi
  exact psiApply_eq hc (fun c v h1 h2 => hp.core.select h1 h2) hi

end PsiNav
end Sri

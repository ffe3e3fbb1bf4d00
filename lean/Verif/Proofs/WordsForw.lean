import Verif.Proofs.WordsBack
import Verif.Proofs.WordPsiCore
import Verif.Proofs.SrCSAValid
import Verif.Props.LargeTexts
/-! # Machine arithmetic in the indexes that report forwards -/
namespace Sri
set_option autoImplicit false

section
variable {T sa T0 : List Nat}

/-- there are no more runs than positions -/
theorem nrun_le : nrun T sa ≤ T.length := by
  have h1 : ((List.range (nrun T sa)).map (hd T sa)).Nodup :=
    List.Nodup.map_on (fun a ha b hb he => hd_inj (List.mem_range.1 ha) (List.mem_range.1 hb) he) List.nodup_range
  have h2 : ((List.range (nrun T sa)).map (hd T sa)) ⊆ List.range T.length := by
    intro x hx
    obtain ⟨q, hq, rfl⟩ := List.mem_map.1 hx
    exact List.mem_range.2 (hd_lt (List.mem_range.1 hq))
  have := (h1.subperm h2).length_le
  simpa using this

namespace PsiNav
variable {N : PsiNav}

theorem OK.len (h : N.OK T sa) (hn : Fits T.length) : (bwtSeq T sa).length < 2 ^ 61 := by
  have := hn.four
  rw [bwtSeq_length]; omega

theorem OK.psiRank64 (h : N.OK T sa) (hn : Fits T.length) (c v : Nat) : Agrees (N.psiRank c v) (N.psiRank64 c v) (fun _ => True) := by
  unfold PsiNav.psiRank PsiNav.psiRank64
  simp only [Option.bind_eq_bind, Option.pure_def]
  exact Agrees.bind (h.core.rankReport64 (h.len hn) c v) fun _ _ _ => Agrees.pure trivial

theorem OK.lf64 (h : N.OK T sa) (hn : Fits T.length) {r : Range} {c : Nat} (hc : c ∈ T) (hr : r.stop ≤ T.length) (hlt : r.start < r.stop) :
    Agrees (N.lf r c) (N.lf64 r c) (fun nr => (PsiNav.toRange nr).stop ≤ T.length) := by
  obtain ⟨a, b⟩ := r
  dsimp only at hr hlt
  have h4 := hn.four
  have hW := W64_eq
  obtain ⟨s, e, k, e1, -⟩ := h.rank hc (show a ≤ T.length by omega)
  obtain ⟨s', e', k', e2, -⟩ := h.rank hc hr
  have hb2 := cum_cnt_le h.text h.isSA c hr
  have hb3 := cum_cnt_le h.text h.isSA c (show a ≤ T.length by omega)
  unfold PsiNav.lf PsiNav.lf64
  simp only [e1, e2, (h.psiRank64 hn c a).eq e1, (h.psiRank64 hn c b).eq e2, h.C c (Nat.le_of_lt (h.lt c hc)), Option.bind_eq_bind, Option.bind_some, Option.pure_def]
  rw [add64_eq (by omega), add64_eq (by omega)]
  refine Agrees.pure ?_
  change cnt T sa c b + cumC T c ≤ T.length
  omega

theorem OK.sigma_le (h : N.OK T sa) : N.alphabet.sigma ≤ T.length := by
  have h1 : (List.range N.alphabet.sigma) ⊆ T := by
    intro c hc
    exact (bwtSeq_perm h.text h.isSA).mem_iff.1 (h.dense.2 c (List.mem_range.1 hc))
  have := (List.nodup_range.subperm h1).length_le
  rwa [List.length_range] at this

theorem OK.cum_sigma (h : N.OK T sa) {c : Nat} (hc : N.alphabet.sigma ≤ c) : cumC T c = T.length := by
  unfold cumC
  rw [List.countP_eq_length]
  intro x hx
  have := h.lt x hx
  simp only [decide_eq_true_eq]
  omega

/-- a symbol that psi can select in is the symbol of a position of the suffix array -/
theorem OK.pos_lt (h : N.OK T sa) {i c : Nat} (hc : computeCForSAIndex N.alphabet.C i = some c) (hlt : c < N.alphabet.sigma) :
    i < T.length := by
  obtain ⟨-, -, h3⟩ := PartOK.upperBound_spec N.alphabet.C i
  unfold computeCForSAIndex csub at hc
  by_cases h1 : 1 ≤ upperBound N.alphabet.C i
  · rw [if_pos h1, Option.some_inj] at hc
    have hu : upperBound N.alphabet.C i = c + 1 := by omega
    have := h3 _ (by rw [hu]; exact h.C (c + 1) hlt)
    have hle := cumC_le (T := T) (c + 1)
    omega
  · rw [if_neg h1] at hc; cases hc

end PsiNav

namespace RCSA
variable {I : RCSA}

theorem phiWith64_agrees (hI : I.n = T.length) (hm : I.marks.length ≤ T.length) (hs : ∀ x ∈ I.samples, x < T.length) (hn : Fits T.length)
    {getIdx : Nat → Option (Nat × Bool)} {valid : Nat → Nat → Bool → Option Bool} {v : Nat} :
    Agrees (phiForward I.successor (getSampleForPhi getIdx (fun k => I.samples[k]?) valid) I.n v) (I.phiWith64 getIdx valid v)
      (fun r => r.1 < T.length) := by
  unfold RCSA.phiWith64
  rw [hI]
  refine phiForward_agrees hn ?_ (fun pos d r hr => getSampleForPhi_lt hs hr)
  unfold RCSA.successor RCSA.successor64
  rw [hI]
  exact circularSoftSuccessor_agrees hm hn

theorem shrink64_agrees (hn : Fits T.length) {r : Range} (hr : r.stop ≤ T.length) (hlt : r.start < r.stop) :
    Agrees (shrink r) (shrink64 r) (fun q => q.stop ≤ T.length) := by
  have h4 := hn.four
  have hW := W64_eq
  unfold shrink shrink64
  rw [add64_eq (by omega)]
  exact Agrees.pure hr

variable {ord : List Nat} {lnk : Nat → Nat}

theorem OK.samples_lt (h : I.OK T sa ord lnk) : ∀ x ∈ I.samples, x < T.length := by
  rw [h.samples]
  intro x hx
  obtain ⟨k, -, rfl⟩ := List.mem_map.1 hx
  exact pv_lt h.nav.text.pos

theorem OK.sim {β : Type} (h : I.OK T sa ord lnk) (hc : Compact T0 sa I.alphabet T) (hn : Fits T.length)
    {create : Range → Nat → RangeRunLF → Nat → Option (StepData β)} {init : StepData β} {g g' : β → Option Nat}
    (hg : ∀ d, Agrees (g d) (g' d) (fun v => v ≤ T.length)) :
    FunctorsSim (I.functorsWith create init g) (I.functorsWith64 create init g') (fun r => r.stop ≤ T.length) where
  getSymbol := rfl
  isEmpty := rfl
  bounds := rfl
  toRange := rfl
  full := rfl
  initial := rfl
  start := Nat.le_of_eq h.nav.n
  lf := fun r ch hr he => h.nav.lf64 hn (hc.symbol ch) hr (by simpa [RCSA.functorsWith] using he)
  update := fun r nr c i d d' _ e => ⟨d', e, fun _ => rfl⟩
  computeAll := fun r d hr he => by
    have hm : I.marks.length ≤ T.length := by rw [h.marks]; simp
    refine computeAllValues_agrees (n := T.length) (V := fun r => r.stop ≤ T.length) ?_
      (shrink64_agrees hn hr (by simpa [RCSA.functorsWith] using he)) ?_
    · rw [h.nav.size]
      exact computeToehold_agrees hn (hg _)
    · intro r k _ hk
      exact phiLoop_agrees (fun v _ => phiWith64_agrees h.nav.n hm h.samples_lt hn) _ k hk

theorem OK.simBwt (h : I.OK T sa ord lnk) (hc : Compact T0 sa I.alphabet T) (hn : Fits T.length) :
    FunctorsSim (RCSABwt.functors I) (RCSABwt.functors64 I) (fun r => r.stop ≤ T.length) := by
  refine h.sim hc hn fun d => ?_
  have h4 := hn.four
  have hW := W64_eq
  unfold RCSABwt.saValueOfRun RCSABwt.saValueOfRun64
  simp only [Option.bind_eq_bind, Option.pure_def]
  refine Agrees.bind (h.nav.core.rankRun64 (h.nav.len hn) h.nav.dense d) fun run _ _ => ?_
  refine Agrees.bind (P := fun x => x < T.length) (Agrees.refl fun x hx => h.samples_lt _ (List.mem_of_getElem? hx)) fun x hx _ => ?_
  rw [add64_eq (by omega)]
  exact Agrees.pure hx

theorem OK.simPsi (h : I.OK T sa ord lnk) (hc : Compact T0 sa I.alphabet T) (hn : Fits T.length) :
    FunctorsSim (RCSAPsi.functors I) (RCSAPsi.functors64 I) (fun r => r.stop ≤ T.length) := by
  refine h.sim hc hn fun d => ?_
  have h4 := hn.four
  have hW := W64_eq
  have hlen : I.samples.length ≤ T.length := by
    rw [h.samples, List.length_map, h.perm.length_eq, List.length_range]; exact nrun_le
  unfold RCSAPsi.saValueOfRun RCSAPsi.saValueOfRun64
  simp only [Option.bind_eq_bind, Option.pure_def]
  refine Agrees.bind (h.nav.core.rankCharRun64 (h.nav.len hn) h.nav.dense d.c) fun prev _ _ => ?_
  intro r hr
  obtain ⟨x, hx, hr⟩ := Option.bind_eq_some_iff.1 hr
  obtain ⟨hi, -⟩ := List.getElem?_eq_some_iff.1 hx
  have hlt := h.samples_lt _ (List.mem_of_getElem? hx)
  rw [add64_eq (by omega), hx, Option.bind_some, add64_eq (by omega)]
  refine ⟨hr, ?_⟩
  rw [Option.some_inj] at hr
  omega

end RCSA

/-- the pieces of an image are not empty and inside the suffix array -/
theorem Images.inside {n : Nat} {f : Nat → Nat} {Good : FRun → Prop} : ∀ {l : List FRun} {a b : Nat}, Images n f Good a b l →
    ∀ q ∈ l, q.start < q.stop ∧ q.stop ≤ n := by
  intro l
  induction l with
  | nil => intro a b _ q hq; cases hq
  | cons r l ih =>
    rintro a b ⟨-, h1, h2, -, -, h3⟩ q hq
    rcases List.mem_cons.1 hq with rfl | hq
    · exact ⟨h1, h2⟩
    · exact ih h3 q hq

namespace SrCSA
variable {I : SrCSA} {K : List Nat}

/-- a run of suffix-array positions -/
def InSA (T : List Nat) (r : FRun) : Prop := r.start < r.stop ∧ r.stop ≤ T.length

theorem OK.splitRunLoop64 (h : I.OK T sa K) (hn : Fits T.length) {last : Nat} (hl : last ≤ T.length) : ∀ (fuel c : Nat), c < I.alphabet.sigma →
    Agrees (I.splitRunLoop last fuel c (cumC T (c + 1))) (I.splitRunLoop64 last fuel c (cumC T (c + 1))) (fun _ => True) := by
  have h4 := hn.four
  have hW := W64_eq
  have hsig := h.nav.sigma_le
  intro fuel
  induction fuel with
  | zero => intro c _; exact Agrees.none
  | succ fuel ih =>
    intro c hc
    rw [SrCSA.splitRunLoop, SrCSA.splitRunLoop64]
    refine Agrees.ite (fun hlt => ?_) fun _ => Agrees.pure trivial
    have hc1 : c + 1 < I.alphabet.sigma := by
      by_contra hcon
      have := h.nav.cum_sigma (show I.alphabet.sigma ≤ c + 1 by omega)
      omega
    dsimp only
    rw [add64_eq (a := c) (b := 1) (by omega), add64_eq (a := c + 1) (b := 1) (by omega)]
    have hC := h.nav.C (c + 1 + 1) hc1
    have hle := cumC_le (T := T) (c + 1 + 1)
    simp only [hC, Option.bind_eq_bind, Option.bind_some, Option.pure_def]
    refine Agrees.csub fun hle' => ?_
    rw [wsub_eq hle' (by omega), add64_eq (by omega)]
    refine Agrees.bind (h.nav.core.computeForwardRuns64 (h.nav.len hn) _ (by omega) (by omega)) fun l _ _ => ?_
    exact Agrees.bind (ih (c + 1) hc1) fun _ _ _ => Agrees.pure trivial

theorem OK.splitRun64 (h : I.OK T sa K) (hn : Fits T.length) {run : FRun} (hr : InSA T run) :
    Agrees (I.splitRun run) (I.splitRun64 run) (fun l => ∀ q ∈ l, InSA T q) := by
  have h4 := hn.four
  have hW := W64_eq
  have hsig := h.nav.sigma_le
  obtain ⟨h1, h2⟩ := hr
  refine Agrees.mono (P := fun _ => True) ?_ ?_
  · have hi : run.start < T.length := by omega
    have hlt : tx T (saAt sa run.start) < I.alphabet.sigma := h.nav.lt _ (by
      rw [tx_lt (saAt_lt h.nav.isSA hi)]; exact List.getElem_mem _)
    have hle := cumC_le (T := T) (tx T (saAt sa run.start) + 1)
    unfold SrCSA.splitRun SrCSA.splitRun64
    simp only [h.sym _ hi, h.nav.C _ (Nat.le_of_lt hlt), h.nav.C _ hlt, Option.bind_eq_bind, Option.bind_some, Option.pure_def]
    rw [add64_eq (a := tx T (saAt sa run.start)) (by omega)]
    simp only [h.nav.C _ hlt, Option.bind_some]
    refine Agrees.csub fun g1 => Agrees.csub fun g2 => ?_
    rw [wsub_eq g1 (by omega), wsub_eq g2 (by omega), add64_eq (by omega), add64_eq (by omega)]
    refine Agrees.bind (h.nav.core.computeForwardRuns64 (h.nav.len hn) _ (by omega) (by omega)) fun l _ _ => ?_
    exact Agrees.bind (h.splitRunLoop64 hn h2 _ _ hlt) fun _ _ _ => Agrees.pure trivial
  · intro l hl _
    obtain ⟨l', e1, e2⟩ := h.splitRun h1 h2
    rw [hl, Option.some_inj] at e1
    subst e1
    exact e2.inside

theorem updateRun64_agrees (hn : Fits T.length) {r : FRun} (hr : InSA T r) :
    Agrees (updateRun r) (updateRun64 r) (fun q => (!decide (q.start < q.stop)) = false → InSA T q) := by
  have h4 := hn.four
  have hW := W64_eq
  obtain ⟨h1, h2⟩ := hr
  unfold updateRun updateRun64
  rw [add64_eq (by omega)]
  exact Agrees.pure fun he => ⟨by simpa using he, h2⟩

/-- the functors of a variant in machine arithmetic follow those over the natural numbers -/
structure OpsSim (O G : ForwOps) (T : List Nat) : Prop where
  getSampleRun : ∀ r, Agrees (O.getSampleRun r) (G.getSampleRun r) (fun x => ∀ v, x = some v → v < T.length)
  getSampleData : ∀ d, Agrees (O.getSampleData d) (G.getSampleData d) (fun x => ∀ v, x = some v → v < T.length)
  splitRange : ∀ a b, a < b → b ≤ T.length → Agrees (O.splitRange a b) (G.splitRange a b) (fun l => ∀ q ∈ l, InSA T q)
  psiData : ∀ d, Agrees (O.psiData d) (G.psiData d) (fun _ => True)
  create : G.create = O.create

variable {O G : ForwOps}

theorem OK.rangeSim (h : I.OK T sa K) (ho : OpsSim O G T) (hn : Fits T.length) (hs : I.s < 2 ^ 63) {phi phi' : Nat → Option (Nat × Bool)}
    (hphi : ∀ v, v < T.length → Agrees (phi v) (phi' v) (fun r => r.1 < T.length)) :
    RangePhi.Sim (I.rangePhi O phi) (I.rangePhi64 G phi') T.length (InSA T) (InSA T) where
  phi := hphi
  getSample := fun r _ => ho.getSampleRun r
  splitRun := fun _ hr => h.splitRun64 hn hr
  navigate := fun _ _ => Agrees.none
  samplingSize := rfl
  small := hs
  seqSize := h.nav.n
  seqSize' := h.nav.n
  updateV := fun _ hr => updateRun64_agrees hn hr
  updateP := fun _ hr => updateRun64_agrees hn hr
  isRunEmpty := rfl

theorem OK.sim (h : I.OK T sa K) (ho : OpsSim O G T) (hc : Compact T0 sa I.alphabet T) (hn : Fits T.length)
    {p p' : Range → Nat → Option (List Nat)} (hp : ∀ r k, r.stop ≤ T.length → k < T.length → Agrees (p r k) (p' r k) (fun _ => True)) :
    FunctorsSim (I.functorsWith O p) (I.functorsWith64 G p') (fun r => r.stop ≤ T.length) where
  getSymbol := rfl
  isEmpty := rfl
  bounds := rfl
  toRange := rfl
  full := rfl
  initial := rfl
  start := Nat.le_of_eq h.nav.n
  lf := fun r ch hr he => h.nav.lf64 hn (hc.symbol ch) hr (by simpa [SrCSA.functorsWith] using he)
  update := fun r nr c i d d' _ e => ⟨d', by simp only [SrCSA.functorsWith64, ho.create]; exact e, fun _ => rfl⟩
  computeAll := fun r d hr he => by
    refine computeAllValues_agrees (n := T.length) (V := fun r => r.stop ≤ T.length) ?_
      (RCSA.shrink64_agrees hn hr (by simpa [SrCSA.functorsWith] using he)) hp
    rw [h.nav.n]
    refine computeToehold_agrees hn ?_
    unfold SrCSA.saValueOfRun
    rw [h.nav.n]
    exact saValueForward_agrees (W := fun _ => True) hn (by omega) (fun d _ => ho.getSampleData d) (fun d _ => ho.psiData d) trivial

theorem OK.phiForRange64 (h : I.OK T sa K) (ho : OpsSim O G T) (hsm : ∀ x ∈ I.samples, x < T.length) (hn : Fits T.length) (hs : I.s < 2 ^ 63)
    {r : Range} {k : Nat} (hr : r.stop ≤ T.length) (hk : k < T.length) : Agrees (I.phiForRange O r k) (I.phiForRange64 G r k) (fun _ => True) := by
  have hm : I.marks.length ≤ T.length := by rw [h.marks]; simp
  have hS := h.rangeSim ho hn hs (phi := I.phi) (phi' := I.phi64) (fun v hv => RCSA.phiWith64_agrees h.nav.n hm hsm hn)
  unfold SrCSA.phiForRange SrCSA.phiForRange64
  simp only [Option.bind_eq_bind]
  refine Agrees.ite (fun hlt => ?_) fun _ => Agrees.pure trivial
  exact Agrees.bind (ho.splitRange _ _ hlt hr) fun l hl _ => hS.forwRange hn hl hk

/-! ## The two ways to find the samples -/

theorem getSamplePos_lt {n : Nat} (hsm : ∀ x ∈ I.samples, x < n) {pos : Nat} {x : Option Nat} (e : I.getSamplePos pos = some x) :
    ∀ v, x = some v → v < n := by
  rintro v rfl
  unfold SrCSA.getSamplePos at e
  simp only [Option.bind_eq_bind, Option.bind_eq_some_iff, Option.pure_def] at e
  obtain ⟨b, -, e⟩ := e
  by_cases hb : b = true
  · rw [if_pos hb] at e
    simp only [Option.bind_eq_some_iff, Option.some.injEq] at e
    obtain ⟨_, -, _, hx, rfl⟩ := e
    exact hsm _ (List.mem_of_getElem? hx)
  · rw [if_neg hb] at e; cases e

theorem OK.symbolRank64 (h : I.OK T sa K) (hn : Fits T.length) {α : Type} {pos : Nat} {f f' : Nat × Nat → Option α}
    (hf : ∀ c k x, f (c, k) = some x → c < I.alphabet.sigma) (hff : ∀ c k, k < W64 → Agrees (f (c, k)) (f' (c, k)) (fun _ => True)) :
    Agrees ((computeCForSAIndex I.alphabet.C pos).bind fun c => (I.alphabet.C[c]?).bind fun b => (csub pos b).bind fun k => f (c, k + 1))
      ((symbolRank64 I.alphabet.C pos).bind f') (fun _ => True) := by
  have h4 := hn.four
  have hW := W64_eq
  unfold Sri.symbolRank64
  simp only [Option.bind_eq_bind, Option.bind_assoc, Option.pure_def, Option.bind_some]
  intro r hr
  simp only [Option.bind_eq_some_iff] at hr
  obtain ⟨c, hc, b, hb, k, hk, hr⟩ := hr
  have hlt := h.nav.pos_lt hc (hf _ _ _ hr)
  unfold csub at hk
  by_cases hle : b ≤ pos
  · rw [if_pos hle, Option.some_inj] at hk
    rw [hc, Option.bind_some, hb, Option.bind_some, wsub_eq hle (by omega), add64_eq (by omega), hk]
    exact hff c (k + 1) (by omega) r hr
  · rw [if_neg hle] at hk; cases hk

theorem OK.parts_lt (h : I.OK T sa K) {c : Nat} {q : EncVector × List Nat} (e : I.psi.parts[c]? = some q) : c < I.alphabet.sigma := by
  obtain ⟨hlt, -⟩ := List.getElem?_eq_some_iff.1 e
  rw [← h.nav.core.len]; exact hlt

theorem OK.psiPos64 (h : I.OK T sa K) (hn : Fits T.length) (d : FData) : Agrees (I.psiPos d) (I.psiPos64 d) (fun _ => True) := by
  have := h.symbolRank64 hn (pos := d.pos) (f := fun q => (I.psi.select q.1 q.2).bind fun p => some { d with pos := p })
    (f' := fun q => (I.psi.select64 q.1 q.2).bind fun p => some { d with pos := p }) (by
    intro c k x e
    obtain ⟨p, e, -⟩ := Option.bind_eq_some_iff.1 e
    unfold PsiCoreRLE.select at e
    simp only [Option.bind_eq_bind, Option.bind_eq_some_iff] at e
    obtain ⟨q, e, -⟩ := e
    exact h.parts_lt e)
    fun c k hk => Agrees.bind (h.nav.core.select64 (h.nav.len hn) c hk) fun _ _ _ => Agrees.pure trivial
  unfold SrCSA.psiPos SrCSA.psiPos64 psiApply
  simp only [Option.bind_eq_bind, Option.bind_assoc, Option.pure_def]
  exact this

theorem OK.psiData64 (h : I.OK T sa K) (hn : Fits T.length) (d : FData) : Agrees (I.psiData d) (I.psiData64 d) (fun _ => True) := by
  have := h.symbolRank64 hn (pos := d.pos) (f := fun q => (I.psi.selectReport q.1 q.2).bind fun p =>
      some ({ pos := p.1, c := q.1, rank := p.2.2.2, isRunStart := decide (p.1 = p.2.1) } : FData))
    (f' := fun q => (I.psi.selectReport64 q.1 q.2).bind fun p =>
      some ({ pos := p.1, c := q.1, rank := p.2.2.2, isRunStart := decide (p.1 = p.2.1) } : FData)) (by
    intro c k x e
    obtain ⟨p, e, -⟩ := Option.bind_eq_some_iff.1 e
    unfold PsiCoreRLE.selectReport at e
    simp only [Option.bind_eq_bind, Option.bind_eq_some_iff] at e
    obtain ⟨q, e, -⟩ := e
    exact h.parts_lt e)
    fun c k hk => Agrees.bind (h.nav.core.selectReport64 (h.nav.len hn) c hk) fun _ _ _ => Agrees.pure trivial
  unfold SrCSA.psiData SrCSA.psiData64
  simp only [Option.bind_eq_bind, Option.pure_def]
  exact this

theorem PosStore.samples_lt (h : I.PosStore T sa K) (hT : IsText T) : ∀ x ∈ I.samples, x < T.length := by
  rw [h.samples]
  intro x hx
  obtain ⟨k, -, rfl⟩ := List.mem_map.1 hx
  exact pv_lt hT.pos

theorem IdxStore.samples_lt (h : I.IdxStore T sa K) (hT : IsText T) : ∀ x ∈ I.samples, x < T.length := by
  rw [h.samples]
  intro x hx
  obtain ⟨k, -, rfl⟩ := List.mem_map.1 hx
  exact pv_lt hT.pos

theorem OK.posSim (h : I.OK T sa K) (hs : I.PosStore T sa K) (hn : Fits T.length) (hint : T.length < 2 ^ 31 - 1) : OpsSim I.posOps I.posOps64 T where
  getSampleRun := fun _ => Agrees.refl fun x hx => getSamplePos_lt (hs.samples_lt h.nav.text) hx
  getSampleData := fun _ => Agrees.refl fun x hx => getSamplePos_lt (hs.samples_lt h.nav.text) hx
  splitRange := fun a b hab hb => by
    have h4 := hn.four
    have hW := W64_eq
    have hlen : I.samplesIdx.length = T.length := by rw [hs.samplesIdx]; simp
    refine Agrees.mono (P := fun _ => True) ?_ ?_
    · have e1 : I.cutRange64 a b = cutRangeInt I a b := by
        unfold SrCSA.cutRange64 cutRangeInt
        rw [add64_eq (show a + 1 < W64 by omega)]
        cases hr : bvRank I.samplesIdx (a + 1) with
        | none => rfl
        | some x =>
          have := (bvRank_le hr).1
          simp only [Option.bind_eq_bind, Option.bind_some]
          rw [add64_eq (show x + 1 < W64 by omega)]
      change Agrees (I.cutRange a b) (I.cutRange64 a b) _
      rw [e1, c40_split_partial I a b (by omega)]
      exact Agrees.refl fun _ _ => trivial
    · intro l hl _
      obtain ⟨l', e1, e2⟩ := hs.cutRange hab hb
      change I.cutRange a b = some l at hl
      rw [hl, Option.some_inj] at e1
      subst e1
      exact e2.inside
  psiData := h.psiPos64 hn
  create := rfl

theorem IdxStore.getSampleIdx64 (h : I.IdxStore T sa K) (hnav : I.toPsiNav.OK T sa) (hn : Fits T.length) (c rank : Nat) (f : Bool) :
    Agrees (I.getSampleIdx c rank f) (I.getSampleIdx64 c rank f) (fun x => ∀ v, x = some v → v < T.length) := by
  have h4 := hn.four
  have hW := W64_eq
  have hsig := hnav.sigma_le
  have hlen : I.samplesIdx.length ≤ T.length := by
    rw [h.samplesIdx, List.length_map, (psiOrd_perm hnav.text hnav.isSA (fun q hq => hnav.dense.1 _ (List.mem_of_getElem? (i := hd T sa q) (by
      rw [bwtSeq_get (hd_lt hq), bwt_hd hq])))).length_eq, List.length_range]
    exact nrun_le
  unfold SrCSA.getSampleIdx SrCSA.getSampleIdx64
  refine Agrees.ite (fun _ => Agrees.pure (fun v e => nomatch e)) fun _ => ?_
  simp only [Option.bind_eq_bind, Option.pure_def]
  refine Agrees.bind (P := fun _ => True) (Agrees.ite (fun h0 => ?_) fun _ => Agrees.pure trivial) fun cc _ _ => ?_
  · intro r hr
    obtain ⟨hi, -⟩ := List.getElem?_eq_some_iff.1 hr
    rw [h.cumLen] at hi
    rw [wsub_eq (by omega) (by omega)]
    exact ⟨hr, trivial⟩
  · intro r hr
    obtain ⟨b, hb, hr⟩ := Option.bind_eq_some_iff.1 hr
    obtain ⟨hi, -⟩ := List.getElem?_eq_some_iff.1 hb
    rw [add64_eq (by omega), hb, Option.bind_some]
    refine ⟨hr, ?_⟩
    rintro v rfl
    by_cases hx : (!b) = true
    · rw [if_pos hx, Option.some_inj] at hr; cases hr
    · rw [if_neg hx] at hr
      simp only [Option.bind_eq_some_iff, Option.some.injEq] at hr
      obtain ⟨_, -, _, hx, rfl⟩ := hr
      exact h.samples_lt hnav.text _ (List.mem_of_getElem? hx)

theorem OK.slimSim (h : I.OK T sa K) (hs : I.IdxStore T sa K) (hn : Fits T.length) : OpsSim I.slimOps I.slimOps64 T where
  getSampleRun := fun _ => hs.getSampleIdx64 h.nav hn _ _ _
  getSampleData := fun _ => hs.getSampleIdx64 h.nav hn _ _ _
  splitRange := fun a b hab hb => by
    refine Agrees.mono (P := fun _ => True) ?_ fun l hl _ => ?_
    · change Agrees (do let l ← I.psi.splitInSortedRuns a b; return l.map createRun)
        (do let l ← I.psi.splitInSortedRuns64 a b; return l.map createRun) _
      simp only [Option.bind_eq_bind, Option.pure_def]
      exact Agrees.bind (h.nav.core.splitInSortedRuns64 (h.nav.len hn) a b) fun _ _ _ => Agrees.pure trivial
    obtain ⟨l', e1, e2⟩ := (h.slimOps hs).range a b hab hb
    rw [hl, Option.some_inj] at e1
    subst e1
    exact e2.inside
  psiData := h.psiData64 hn
  create := rfl

end SrCSA

namespace SrCSAValid
variable {I : SrCSAValid} {K : List Nat} {V : List (Nat × Nat)} {O G : ForwOps}

theorem OK.phiForRange64 (h : I.OK T sa K V) (ho : SrCSA.OpsSim O G T) (hn : Fits T.length) (hs : I.csa.s < 2 ^ 63)
    {phi phi' : Nat → Option (Nat × Bool)} (hphi : ∀ v, v < T.length → Agrees (phi v) (phi' v) (fun r => r.1 < T.length))
    {r : Range} {k : Nat} (hr : r.stop ≤ T.length) (hk : k < T.length) :
    Agrees (I.phiForRange O phi r k) (I.phiForRange64 G phi' r k) (fun _ => True) := by
  have hS := h.csa.rangeSim ho hn hs hphi
  unfold SrCSAValid.phiForRange SrCSAValid.phiForRange64
  refine Agrees.ite (fun hlt => ?_) fun _ => Agrees.pure trivial
  exact hS.forwRangeV hn (ho.splitRange _ _ hlt hr) hk

theorem OK.phiMark64 (h : I.OK T sa K V) (hsm : ∀ x ∈ I.csa.samples, x < T.length) (hn : Fits T.length) (v : Nat) (_ : v < T.length) :
    Agrees (I.phiMark v) (I.phiMark64 v) (fun r => r.1 < T.length) :=
  RCSA.phiWith64_agrees h.csa.nav.n (by rw [h.csa.marks]; simp) hsm hn

theorem OK.phiArea64 (h : I.OK T sa K V) (hsm : ∀ x ∈ I.csa.samples, x < T.length) (hn : Fits T.length) (v : Nat) (_ : v < T.length) :
    Agrees (I.phiArea v) (I.phiArea64 v) (fun r => r.1 < T.length) :=
  RCSA.phiWith64_agrees h.csa.nav.n (by rw [h.csa.marks]; simp) hsm hn

end SrCSAValid
end
end Sri

import Verif.Proofs.EmptyOne
import Verif.Props.Space
/-! # C80: at a rate of at most one a sub-sampled index is the full index -/
namespace Sri
set_option autoImplicit false

/-- **C80**, r-index: built at a rate of at most one, the sr-index holds the very items of the r-index of the text (alphabet, run-length
    string, samples, marks and links), and records every run as sampled. -/
theorem c80_srindex (T sa : List Nat) (hT : IsText T) (hsa : IsSA T sa) (s : Nat) (hs : s ≤ 1) :
    ∃ I, SrIndex.build T sa s = some I ∧ RIndex.build T sa = some I.base ∧ ∀ b ∈ I.samplesIdx, b = true :=
  SrIndex.build_one hT hsa hs

/-- **C80**, sr-csa: at such a rate it holds the alphabet, psi, samples, marks and links of the r-csa with BWT runs. -/
theorem c80_srcsa (T sa : List Nat) (hT : IsText T) (hsa : IsSA T sa) (hn : T.length < 2^64) (s : Nat) (hs : s ≤ 1) :
    ∃ I R, SrCSA.build T sa s = some I ∧ RCSABwt.build T sa = some R ∧ I.alphabet = R.alphabet ∧ I.psi = R.psi ∧ I.n = R.n ∧
      I.samples = R.samples ∧ I.marks = R.marks ∧ I.markToSample = R.markToSample :=
  SrCSA.build_one hT hsa hn hs

/-- **C80**, slim sr-csa: it holds the items of the r-csa with psi runs, though it is sub-sampled over BWT runs, and
    records every run as sampled. -/
theorem c80_srcsaslim (T sa : List Nat) (hT : IsText T) (hsa : IsSA T sa) (hn : T.length < 2^64) (s : Nat) (hs : s ≤ 1) :
    ∃ I R, SrCSA.buildSlim T sa s = some I ∧ RCSAPsi.build T sa = some R ∧ I.alphabet = R.alphabet ∧ I.psi = R.psi ∧ I.n = R.n ∧
      I.samples = R.samples ∧ I.marks = R.marks ∧ I.markToSample = R.markToSample ∧
      ∀ b ∈ I.samplesIdx, b = true := by
  obtain ⟨I, R, h1, h2, ⟨g1, g2, g3, g4, g5, g6⟩, h3⟩ := SrCSA.buildSlim_one hT hsa hn hs
  exact ⟨I, R, h1, h2, g1, g2, g3, g4, g5, g6, h3⟩

/-- **C80**, sr-csa with psi runs. -/
theorem c80_srcsapsi (T sa : List Nat) (hT : IsText T) (hsa : IsSA T sa) (hn : T.length < 2^64) (s : Nat) (hs : s ≤ 1) :
    ∃ I R, SrCSA.buildPsi T sa s = some I ∧ RCSAPsi.build T sa = some R ∧ I.alphabet = R.alphabet ∧ I.psi = R.psi ∧ I.n = R.n ∧
      I.samples = R.samples ∧ I.marks = R.marks ∧ I.markToSample = R.markToSample ∧
      ∀ b ∈ I.samplesIdx, b = true := by
  obtain ⟨I, R, h1, h2, ⟨g1, g2, g3, g4, g5, g6⟩, h3⟩ := SrCSA.buildPsi_one hT hsa hn hs
  exact ⟨I, R, h1, h2, g1, g2, g3, g4, g5, g6, h3⟩

/-- **C80**, validity over the sr-index: every mark is declared valid, no area is stored, and phi of both variants is phi of the r-index. -/
theorem c80_srindex_valid (T sa : List Nat) (hT : IsText T) (hsa : IsSA T sa) (s : Nat) (hs : s ≤ 1) :
    ∃ I R, SrIndexValid.build T sa s = some I ∧ RIndex.build T sa = some R ∧ I.sr.base = R ∧ I.validAreas = [] ∧
      (∀ b ∈ I.validMarks, b = true) ∧ I.phiMark = R.phi ∧ I.phiArea = R.phi := by
  obtain ⟨I, T', K, V, hb, ok, hIs, -⟩ := SrIndexValid.build_ok hT hsa s
  obtain ⟨J, hJ, hR, -⟩ := c80_srindex T sa hT hsa s hs
  rw [SrIndexValid.build_sr hb, Option.some_inj] at hJ
  subst hJ
  obtain ⟨h1, h2⟩ := ok.one (by omega)
  obtain ⟨g1, g2⟩ := SrIndexValid.phi_same (I := I) (by
    rw [ok.sr.links, ok.marks, sortIndices_length]; simp [subPos]) h2
  exact ⟨I, _, hb, hR, rfl, h1, h2, g1, g2⟩

/-- **C80**, validity over the sr-csa. -/
theorem c80_srcsa_valid (T sa : List Nat) (hT : IsText T) (hsa : IsSA T sa) (hn : T.length < 2^64) (s : Nat) (hs : s ≤ 1) :
    ∃ I R, SrCSAValid.build T sa s = some I ∧ RCSABwt.build T sa = some R ∧ I.validAreas = [] ∧ (∀ b ∈ I.validMarks, b = true) ∧
      I.phiMark = R.phi ∧ I.phiArea = R.phi := by
  obtain ⟨I, T', K, V, hb, ok, -, hIs, hc⟩ := SrCSAValid.build_ok hT hsa hn s
  obtain ⟨J, R, hJ, hR, hm⟩ := SrCSA.build_one hT hsa hn hs
  obtain ⟨R', T'', hR', okR, hcR⟩ := RCSABwt.build_ok hT hsa hn
  rw [SrCSAValid.build_csa hb, Option.some_inj] at hJ
  rw [hR, Option.some_inj] at hR'
  subst hJ; subst hR'
  obtain ⟨g1, g2, -⟩ := ok.round (by omega) hc okR hcR hm
  obtain ⟨h1, h2⟩ := ok.one (by omega)
  exact ⟨I, R, hb, hR, h1, h2, g1, g2⟩

/-- **C80**, validity over the slim sr-csa. -/
theorem c80_srcsaslim_valid (T sa : List Nat) (hT : IsText T) (hsa : IsSA T sa) (hn : T.length < 2^64) (s : Nat) (hs : s ≤ 1) :
    ∃ I R, SrCSAValid.buildSlim T sa s = some I ∧ RCSAPsi.build T sa = some R ∧ I.validAreas = [] ∧ (∀ b ∈ I.validMarks, b = true) ∧
      I.phiMark = R.phi ∧ I.phiArea = R.phi := by
  obtain ⟨I, T', K, V, hb, ok, -, hIs, hc⟩ := SrCSAValid.buildSlim_ok hT hsa hn s
  obtain ⟨J, R, hJ, hR, hm, -⟩ := SrCSA.buildSlim_one hT hsa hn hs
  obtain ⟨R', T'', hR', hcR, okR⟩ := RCSAPsi.build_ok hT hsa hn
  rw [SrCSAValid.buildSlim_csa hb, Option.some_inj] at hJ
  rw [hR, Option.some_inj] at hR'
  subst hJ; subst hR'
  obtain ⟨g1, g2, -⟩ := ok.round (by omega) hc okR hcR hm
  obtain ⟨h1, h2⟩ := ok.one (by omega)
  exact ⟨I, R, hb, hR, h1, h2, g1, g2⟩

/-- **C80**, validity over the sr-csa with psi runs. -/
theorem c80_srcsapsi_valid (T sa : List Nat) (hT : IsText T) (hsa : IsSA T sa) (hn : T.length < 2^64) (s : Nat) (hs : s ≤ 1) :
    ∃ I R, SrCSAValid.buildPsi T sa s = some I ∧ RCSAPsi.build T sa = some R ∧ I.validAreas = [] ∧ (∀ b ∈ I.validMarks, b = true) ∧
      I.phiMark = R.phi ∧ I.phiArea = R.phi := by
  obtain ⟨I, T', K, V, hb, ok, -, hIs, hc⟩ := SrCSAValid.buildPsi_ok hT hsa hn s
  obtain ⟨J, R, hJ, hR, hm, -⟩ := SrCSA.buildPsi_one hT hsa hn hs
  obtain ⟨R', T'', hR', hcR, okR⟩ := RCSAPsi.build_ok hT hsa hn
  rw [SrCSAValid.buildPsi_csa hb, Option.some_inj] at hJ
  rw [hR, Option.some_inj] at hR'
  subst hJ; subst hR'
  obtain ⟨g1, g2, -⟩ := ok.round (by omega) hc okR hcR hm
  obtain ⟨h1, h2⟩ := ok.one (by omega)
  exact ⟨I, R, hb, hR, h1, h2, g1, g2⟩

-- at rate 1, and what a rate of 8 removes
example : IsText exText ∧ IsSA exText exSA ∧ exText.length < 2^64 ∧ (SrIndex.build exText exSA 1).map (·.base) = RIndex.build exText exSA ∧
    (RIndex.build exText exSA).map (·.samples.length) = some 6 ∧ (SrIndex.build exText exSA 8).map (·.base.samples.length) = some 4 :=
  ⟨exText_isText, exSA_isSA, by decide, by decide, by decide, by decide⟩
example : (SrCSA.build exText exSA 1).map (fun I => (I.samples, I.marks, I.markToSample)) =
    (RCSABwt.build exText exSA).map (fun R => (R.samples, R.marks, R.markToSample)) ∧
    (SrCSA.buildPsi exText exSA 1).map (fun I => (I.samples, I.marks, I.markToSample)) =
    (RCSAPsi.build exText exSA).map (fun R => (R.samples, R.marks, R.markToSample)) := ⟨by decide, by decide⟩
end Sri

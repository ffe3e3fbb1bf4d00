import Verif.Proofs.RateMono
import Verif.Props.Space
/-! # C79: a greater rate never costs more space -/
namespace Sri
set_option autoImplicit false

/-- **C79**, the sampling: among samples with distinct text positions, listed by increasing position, and with the same required ones, a
    greater rate keeps no more. -/
theorem c79_sampling (s s' : Nat) (hs : s ≤ s') (idxs pos req kept kept' : List Nat) (hb : ∀ i ∈ idxs, i < pos.length)
    (hp : (idxs.map (fun i => pos.getD i 0)).Pairwise (· < ·)) (h : computeSampling s idxs pos req = some kept)
    (h' : computeSampling s' idxs pos req = some kept') : kept'.length ≤ kept.length :=
  computeSampling_mono hs idxs pos req kept kept' hb (List.pairwise_map.1 hp) h h'

-- what is kept at a greater rate need not be among what is kept at a smaller one
example : computeSampling 3 (List.range 12) (List.range 12) [4] = some [0, 3, 4, 7, 10, 11] ∧
    computeSampling 5 (List.range 12) (List.range 12) [4] = some [0, 4, 9, 11] := by decide

theorem links_mono (t : IndexType) (T sa : List Nat) (hT : IsText T) (hsa : IsSA T sa) (hn : T.length < 2^64) {s s' : Nat} (hs : s ≤ s')
    {z z' : Stored} (h : storedSizes t T sa s = some z) (h' : storedSizes t T sa s' = some z') : z'.samples ≤ z.samples := by
  obtain ⟨y, g1, -, g2, -⟩ := c55_space t T sa hT hsa hn s
  obtain ⟨y', g1', -, g2', -⟩ := c55_space t T sa hT hsa hn s'
  rw [h, Option.some_inj] at g1
  rw [h', Option.some_inj] at g1'
  subst g1; subst g1'
  cases t <;> simp only [storedSizes] at h h'
  case rIndex | rcsaWithBWTRun | rcsaWithPsiRun => rw [h, Option.some_inj] at h'; subst h'; exact Nat.le_refl _
  all_goals
    obtain ⟨I, e, rfl⟩ := Option.map_eq_some_iff.1 h
    obtain ⟨I', e', rfl⟩ := Option.map_eq_some_iff.1 h'
  case srIndex => exact SrIndex.build_mono hT hsa hs e e'
  case srIndexValidMark | srIndexValidArea => exact SrIndex.build_mono hT hsa hs (SrIndexValid.build_sr e) (SrIndexValid.build_sr e')
  all_goals rw [← g2, ← g2']
  case srCSA => exact SrCSA.build_mono hT hsa hn hs e e'
  case srCSASlim => exact SrCSA.buildSlim_mono hT hsa hn hs e e'
  case srCSAWithPsiRun => exact SrCSA.buildPsi_mono hT hsa hs e e'
  case srCSAValidMark | srCSAValidArea => exact SrCSA.build_mono hT hsa hn hs (SrCSAValid.build_csa e) (SrCSAValid.build_csa e')
  case srCSASlimValidMark | srCSASlimValidArea => exact SrCSA.buildSlim_mono hT hsa hn hs (SrCSAValid.buildSlim_csa e) (SrCSAValid.buildSlim_csa e')
  case psiValidMark | psiValidArea => exact SrCSA.buildPsi_mono hT hsa hs (SrCSAValid.buildPsi_csa e) (SrCSAValid.buildPsi_csa e')

/-- **C79**: of two indexes of the same type and text, the one with the greater rate holds no more samples, marks, links, sampled runs and
    validity bits. -/
theorem c79_rate_mono (t : IndexType) (T sa : List Nat) (hT : IsText T) (hsa : IsSA T sa) (hn : T.length < 2^64) (s s' : Nat) (hs : s ≤ s') :
    ∃ z z', storedSizes t T sa s = some z ∧ storedSizes t T sa s' = some z' ∧ z'.samples ≤ z.samples ∧ z'.marks ≤ z.marks ∧
      z'.links ≤ z.links ∧ z'.sampled ≤ z.sampled ∧ z'.validBits ≤ z.validBits := by
  obtain ⟨z, h, a1, a2, -, a3, a4, a5, a6⟩ := c55_space t T sa hT hsa hn s
  obtain ⟨z', h', b1, b2, -, b3, b4, b5, b6⟩ := c55_space t T sa hT hsa hn s'
  have key := links_mono t T sa hT hsa hn hs h h'
  refine ⟨z, z', h, h', key, by omega, by omega, ?_, ?_⟩
  · cases ht : t.subsampled with
    | true => rw [(a3 ht).1, (b3 ht).1]; exact key
    | false => rw [(a4 ht).1, (b4 ht).1]
  · cases ht : t.withValidity with
    | true => rw [(a5 ht).1, (b5 ht).1]; exact key
    | false => rw [(a6 ht).1, (b6 ht).1]

-- the valid areas are another matter: at rate 1 there are none
example : IsText exText ∧ IsSA exText exSA ∧ exText.length < 2^64 ∧ storedSizes .srIndexValidArea exText exSA 1 = some ⟨6, 6, 6, 6, 6, 0⟩ ∧
    storedSizes .srIndexValidArea exText exSA 8 = some ⟨4, 4, 4, 4, 4, 2⟩ ∧ storedSizes .psiValidArea exText exSA 3 = some ⟨5, 5, 5, 5, 5, 1⟩ :=
  ⟨exText_isText, exSA_isSA, by decide, by decide, by decide, by decide⟩

end Sri

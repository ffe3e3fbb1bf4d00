import Verif.Proofs.Sizes
import Verif.Props.AllIndexes
/-! # C55: the sampling rate bounds what a sub-sampled index stores -/
namespace Sri
set_option autoImplicit false

/-- **C55**, the sampling: among samples with distinct text positions up to `M`, listed by increasing position, at most
    `2 M / (s + 1) + 2` are kept besides the required ones. -/
theorem c55_sampling (s M : Nat) (idxs pos req kept : List Nat) (hb : ∀ i ∈ idxs, i < pos.length)
    (hs : (idxs.map (fun i => pos.getD i 0)).Pairwise (· < ·)) (hM : ∀ i ∈ idxs, pos.getD i 0 ≤ M)
    (hk : computeSampling s idxs pos req = some kept) : kept.length ≤ 2 * M / (s + 1) + 2 + req.length := by
  have h := computeSampling_count s M idxs pos req kept hb (List.pairwise_map.1 hs) hM hk
  have h1 : kept.length ≤ (2 * M + (s + 1) * (2 + req.length)) / (s + 1) := by
    rw [Nat.le_div_iff_mul_le (by omega), Nat.mul_comm]; exact h
  rw [Nat.add_mul_div_left _ _ (by omega)] at h1
  omega

-- samples at the positions 0 .. 20, rate 9, one required: 4 are kept. Six samples for which the bound 2 * 21 / 10 + 2 is met exactly
example : computeSampling 9 (List.range 21) (List.range 21) [4] = some [0, 4, 13, 20] := by decide
example : computeSampling 9 [0, 1, 2, 3, 4, 5] [0, 1, 10, 11, 20, 21] [] = some [0, 1, 2, 3, 4, 5] := by decide

/-- **C55**: for every index type, text and rate `s`, the index holds as many marks and links as samples. A sub-sampled one marks as many
    sampled runs, keeps at most `2 (n - 1) / (s + 1) + 4` of the samples and never more than there are runs in the BWT; at a rate of at most
    one it keeps them all. Indexes that are not sub-sampled keep one sample per run. The validity bits are as many as the marks, and there
    are no more areas than marks; the types without validity information hold neither. -/
theorem c55_space (t : IndexType) (T sa : List Nat) (hT : IsText T) (hsa : IsSA T sa) (hn : T.length < 2^64) (s : Nat) :
    ∃ z, storedSizes t T sa s = some z ∧ z.marks = z.samples ∧ z.links = z.samples ∧
      z.samples ≤ runsBefore (bwtOf T sa) T.length ∧
      (t.subsampled = true → z.sampled = z.samples ∧ z.samples ≤ 2 * (T.length - 1) / (s + 1) + 4 ∧
        (s ≤ 1 → z.samples = runsBefore (bwtOf T sa) T.length)) ∧
      (t.subsampled = false → z.sampled = 0 ∧ z.samples = runsBefore (bwtOf T sa) T.length) ∧
      (t.withValidity = true → z.validBits = z.samples ∧ z.areas ≤ z.samples) ∧
      (t.withValidity = false → z.validBits = 0 ∧ z.areas = 0) := by
  rw [← nrun_spec hsa hT.pos]
  cases t
  case rIndex =>
    obtain ⟨I, hb, z⟩ := RIndex.build_sizes hT hsa
    exact ⟨I.stored, by simp [storedSizes, hb], by rw [z.marks, z.samples], by rw [z.links, z.samples], Nat.le_of_eq z.samples, by simp [IndexType.subsampled], fun _ => ⟨rfl, z.samples⟩, by simp [IndexType.withValidity], fun _ => ⟨rfl, rfl⟩⟩
  case rcsaWithBWTRun =>
    obtain ⟨I, hb, z⟩ := RCSABwt.build_sizes hT hsa hn
    exact ⟨I.stored, by simp [storedSizes, hb], by rw [z.marks, z.samples], by rw [z.links, z.samples], Nat.le_of_eq z.samples, by simp [IndexType.subsampled], fun _ => ⟨rfl, z.samples⟩, by simp [IndexType.withValidity], fun _ => ⟨rfl, rfl⟩⟩
  case rcsaWithPsiRun =>
    obtain ⟨I, hb, z⟩ := RCSAPsi.build_sizes hT hsa hn
    exact ⟨I.stored, by simp [storedSizes, hb], by rw [z.marks, z.samples], by rw [z.links, z.samples], Nat.le_of_eq z.samples, by simp [IndexType.subsampled], fun _ => ⟨rfl, z.samples⟩, by simp [IndexType.withValidity], fun _ => ⟨rfl, rfl⟩⟩
  case srIndex =>
    obtain ⟨I, k, hb, z⟩ := SrIndex.build_sizes hT hsa s
    exact ⟨I.stored, by simp [storedSizes, hb], by rw [z.marks, z.samples], by rw [z.links, z.samples], by rw [z.samples]; exact z.runs, fun _ => ⟨by rw [z.sampled, z.samples], by rw [z.samples]; exact z.few, fun h => by rw [z.samples]; exact z.all h⟩, by simp [IndexType.subsampled], by simp [IndexType.withValidity], fun _ => ⟨rfl, rfl⟩⟩
  case srCSA =>
    obtain ⟨I, k, hb, z⟩ := SrCSA.build_sizes hT hsa hn s
    exact ⟨I.stored, by simp [storedSizes, hb], by rw [z.marks, z.samples], by rw [z.links, z.samples], by rw [z.samples]; exact z.runs, fun _ => ⟨by rw [z.sampled, z.samples], by rw [z.samples]; exact z.few, fun h => by rw [z.samples]; exact z.all h⟩, by simp [IndexType.subsampled], by simp [IndexType.withValidity], fun _ => ⟨rfl, rfl⟩⟩
  case srCSASlim =>
    obtain ⟨I, k, hb, z⟩ := SrCSA.buildSlim_sizes hT hsa hn s
    exact ⟨I.stored, by simp [storedSizes, hb], by rw [z.marks, z.samples], by rw [z.links, z.samples], by rw [z.samples]; exact z.runs, fun _ => ⟨by rw [z.sampled, z.samples], by rw [z.samples]; exact z.few, fun h => by rw [z.samples]; exact z.all h⟩, by simp [IndexType.subsampled], by simp [IndexType.withValidity], fun _ => ⟨rfl, rfl⟩⟩
  case srCSAWithPsiRun =>
    obtain ⟨I, k, hb, z⟩ := SrCSA.buildPsi_sizes hT hsa hn s
    exact ⟨I.stored, by simp [storedSizes, hb], by rw [z.marks, z.samples], by rw [z.links, z.samples], by rw [z.samples]; exact z.runs, fun _ => ⟨by rw [z.sampled, z.samples], by rw [z.samples]; exact z.few, fun h => by rw [z.samples]; exact z.all h⟩, by simp [IndexType.subsampled], by simp [IndexType.withValidity], fun _ => ⟨rfl, rfl⟩⟩
  case srIndexValidMark | srIndexValidArea =>
    obtain ⟨I, k, hb, z, v⟩ := SrIndexValid.build_sizes hT hsa s
    exact ⟨I.stored, by simp [storedSizes, hb], by rw [z.marks, z.samples], by rw [z.links, z.samples], by rw [z.samples]; exact z.runs, fun _ => ⟨by rw [z.sampled, z.samples], by rw [z.samples]; exact z.few, fun h => by rw [z.samples]; exact z.all h⟩, by simp [IndexType.subsampled], fun _ => ⟨v.bits, v.le⟩, by simp [IndexType.withValidity]⟩
  case srCSAValidMark | srCSAValidArea =>
    obtain ⟨I, k, hb, z, v⟩ := SrCSAValid.build_sizes hT hsa hn s
    exact ⟨I.stored, by simp [storedSizes, hb], by rw [z.marks, z.samples], by rw [z.links, z.samples], by rw [z.samples]; exact z.runs, fun _ => ⟨by rw [z.sampled, z.samples], by rw [z.samples]; exact z.few, fun h => by rw [z.samples]; exact z.all h⟩, by simp [IndexType.subsampled], fun _ => ⟨v.bits, v.le⟩, by simp [IndexType.withValidity]⟩
  case srCSASlimValidMark | srCSASlimValidArea =>
    obtain ⟨I, k, hb, z, v⟩ := SrCSAValid.buildSlim_sizes hT hsa hn s
    exact ⟨I.stored, by simp [storedSizes, hb], by rw [z.marks, z.samples], by rw [z.links, z.samples], by rw [z.samples]; exact z.runs, fun _ => ⟨by rw [z.sampled, z.samples], by rw [z.samples]; exact z.few, fun h => by rw [z.samples]; exact z.all h⟩, by simp [IndexType.subsampled], fun _ => ⟨v.bits, v.le⟩, by simp [IndexType.withValidity]⟩
  case psiValidMark | psiValidArea =>
    obtain ⟨I, k, hb, z, v⟩ := SrCSAValid.buildPsi_sizes hT hsa hn s
    exact ⟨I.stored, by simp [storedSizes, hb], by rw [z.marks, z.samples], by rw [z.links, z.samples], by rw [z.samples]; exact z.runs, fun _ => ⟨by rw [z.sampled, z.samples], by rw [z.samples]; exact z.few, fun h => by rw [z.samples]; exact z.all h⟩, by simp [IndexType.subsampled], fun _ => ⟨v.bits, v.le⟩, by simp [IndexType.withValidity]⟩

/-- **C55**: the areas are exactly the marks whose validity bit is cleared, in the classes over SrIndex -/
theorem c55_areas (T sa : List Nat) (hT : IsText T) (hsa : IsSA T sa) (s : Nat) :
    ∃ I, SrIndexValid.build T sa s = some I ∧ I.validMarks.length = I.sr.base.markToSample.length ∧
      I.validAreas.length = I.validMarks.count false := by
  obtain ⟨I, k, hb, z, v⟩ := SrIndexValid.build_sizes hT hsa s
  exact ⟨I, hb, (v.bits.trans (z.samples.trans z.links.symm) : I.stored.validBits = I.stored.links), v.areas⟩

/-- **C55**: the same in the classes over SrCSA, SrCSASlim and SrCSAWithPsiRun -/
theorem c55_areas_csa (T sa : List Nat) (hT : IsText T) (hsa : IsSA T sa) (hn : T.length < 2^64) (s : Nat)
    (build : List Nat → List Nat → Nat → Option SrCSAValid)
    (hbuild : build = SrCSAValid.build ∨ build = SrCSAValid.buildSlim ∨ build = SrCSAValid.buildPsi) :
    ∃ I, build T sa s = some I ∧ I.validMarks.length = I.csa.markToSample.length ∧ I.validAreas.length = I.validMarks.count false := by
  have key : ∃ I k, build T sa s = some I ∧ SubSizes I.stored T.length (nrun T sa) s k ∧ ValidSizes I.stored (I.validMarks.count false) := by
    rcases hbuild with rfl | rfl | rfl
    · exact SrCSAValid.build_sizes hT hsa hn s
    · exact SrCSAValid.buildSlim_sizes hT hsa hn s
    · exact SrCSAValid.buildPsi_sizes hT hsa hn s
  obtain ⟨I, k, hb, z, v⟩ := key
  exact ⟨I, hb, (v.bits.trans (z.samples.trans z.links.symm) : I.stored.validBits = I.stored.links), v.areas⟩

-- a text of 12 symbols whose BWT has 6 runs
example : runsBefore (bwtOf exText exSA) exText.length = 6 := by decide
example : storedSizes .rIndex exText exSA 8 = some ⟨6, 6, 6, 0, 0, 0⟩ := by decide
example : storedSizes .srIndexValidArea exText exSA 8 = some ⟨4, 4, 4, 4, 4, 2⟩ := by decide
example : storedSizes .psiValidArea exText exSA 3 = some ⟨5, 5, 5, 5, 5, 1⟩ := by decide
example : IsText exText ∧ IsSA exText exSA := ⟨exText_isText, exSA_isSA⟩

end Sri

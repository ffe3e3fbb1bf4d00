import Verif.Proofs.ConstructBench
/-! # C64: the counters of the construction benchmarks -/
namespace Sri
set_option autoImplicit false

/-- What the counters of a benchmark should be, for a class and a rate. For the classes without a rate: the number of symbols of the text, with
    its end marker, and the number of runs of its BWT. For the others: the rate, and the number of samples of the index. The rest is `0`. -/
def CountersOK (bytes : List Nat) (q : IndexType × Nat) (c : ConstructCounters) : Prop :=
  (q.1.subsampled = false → c = { n := bytes.length + 1, r := runsBefore (bwtOf (bytes ++ [0]) (suffixArray (bytes ++ [0]))) (bytes.length + 1) }) ∧
  (q.1.subsampled = true → ∃ z, storedSizes q.1 (bytes ++ [0]) (suffixArray (bytes ++ [0])) q.2 = some z ∧ c = { s := q.2, kept := z.samples })

/-- the cache in a directory has the indices of the samples of the runs of the BWT, for a rate -/
def Disk.HasForward (D : Disk) (s : Nat) : Prop := (D (FileRef.file s (.subFirstIdx, none))).isSome = true

section
variable {bytes : List Nat}

theorem psi_no_forward (t : IndexType) (b : BvKind) (h : t.overPsiRuns = true) : ((.subFirstIdx, none) : FileRef) ∉ outputsOf (program t b) := by
  cases t <;> first | exact absurd h (by decide) | (cases b <;> decide +kernel)

theorem kept_written (t : IndexType) (b : BvKind) (h1 : t.subsampled = true) (h2 : t.overPsiRuns = false) : keptRef t ∈ outputsOf (program t b) := by
  cases t <;> first | exact absurd h1 (by decide) | exact absurd h2 (by decide) | (cases b <;> decide +kernel)

theorem base_written (t : IndexType) (b : BvKind) : ((.text, none) : FileRef) ∈ outputsOf (program t b) ∧ (.first, none) ∈ outputsOf (program t b) := by
  cases t <;> cases b <;> decide +kernel

theorem kept_named (t : IndexType) : keptRef t ≠ (.subPsiIdx, none) := by cases t <;> decide

/-- a benchmark, for any state of the directory that the history of a cache leads to -/
theorem bench_run (h0 : ∀ c ∈ bytes, c ≠ 0) (hn : bytes.length + 1 < 2^64) {P : Process}
    (hP : CacheHistory bytes CleanDisk (Process.fresh Disk.empty) P) (t : IndexType) (b : BvKind) (s k : Nat) :
    (t.subsampled = true → t.overPsiRuns = true → ¬ P.disk.HasForward s → benchConstruct bytes t b s (k + 1) P.disk = none) ∧
    ((t.subsampled = true → t.overPsiRuns = true → P.disk.HasForward s) →
      ∃ P' c, benchConstruct bytes t b s (k + 1) P.disk = some (P', c) ∧ CountersOK bytes (t, s) c ∧
        CacheHistory bytes CleanDisk (Process.fresh Disk.empty) P' ∧ (∀ s', P.disk.HasForward s' → P'.disk.HasForward s') ∧
        (keptRef t = (.subFirstIdx, none) → t.subsampled = true → P'.disk.HasForward s)) := by
  obtain ⟨v, ⟨w⟩⟩ := ideal_exists h0 hn
  have hT : IsText (bytes ++ [0]) := ⟨bytes, rfl, h0⟩
  have hsa := suffixArray_isSA (bytes ++ [0])
  have hl : (bytes ++ [0]).length < 2^64 := by simpa using hn
  obtain ⟨P', h1, h2, h3, h4, h5, h6⟩ := rounds_run (v := v) (w := w) (input_of_bytes h0) t b s k (Process.fresh P.disk) (.restart hP)
  refine ⟨?_, ?_⟩
  · intro ht hp hno
    have hk : keptRef t = (.subFirstIdx, none) := by cases t <;> first | exact absurd hp (by decide) | rfl
    have : P'.disk (FileRef.file s (keptRef t)) = none := by
      rw [hk]
      refine Option.not_isSome_iff_eq_none.1 (fun he => ?_)
      rcases h6 _ he with he | ⟨r, hr, e⟩
      · exact hno he
      · rw [(file_inj e).1] at hr
        exact psi_no_forward t b hp hr
    unfold benchConstruct
    simp only [h1, ht, if_true, Option.bind_eq_bind, Option.bind_some, bufferSize_absent h3 (kept_named t) this, Option.bind_none]
  · intro hf
    by_cases ht : t.subsampled = true
    · obtain ⟨z, l, hz, hi, hlen⟩ := kept_count (s := s) hT hsa hl w t ht
      have he : (P'.disk (FileRef.file s (keptRef t))).isSome = true := by
        by_cases hp : t.overPsiRuns = true
        · have hk : keptRef t = (.subFirstIdx, none) := by cases t <;> first | exact absurd hp (by decide) | rfl
          rw [hk]
          exact h5 _ (hf ht hp)
        · exact h4 _ (kept_written t b ht (by simpa using hp))
      refine ⟨P', { s := s, kept := z.samples }, ?_, ⟨fun h => absurd (ht.symm.trans h) (by decide), fun _ => ⟨z, hz, rfl⟩⟩, h2, fun s' hs' => h5 _ hs', fun hk _ => ?_⟩
      · unfold benchConstruct
        simp only [h1, ht, if_true, Option.bind_eq_bind, Option.bind_some, bufferSize_right h3 (kept_named t) he hi, hlen]
        rfl
      · rw [hk] at he; exact he
    · have ht' : t.subsampled = false := by simpa using ht
      have hr : v.b.runs.first.length = runsBefore (bwtOf (bytes ++ [0]) (suffixArray (bytes ++ [0]))) (bytes.length + 1) := by
        obtain ⟨b', T', hb, ok⟩ := base_build hT hsa
        have eb : v.b = b' := Option.some_inj.1 (v.hb.symm.trans hb)
        have := nrun_spec (T := bytes ++ [0]) hsa hT.pos
        rw [List.length_append, List.length_singleton] at this
        rw [← this, eb, ok.first, List.length_map, List.length_range, ← ok.compact.nrun_eq hT hsa]
      refine ⟨P', { n := bytes.length + 1, r := _ }, ?_, ⟨fun _ => rfl, fun h => absurd h ht⟩, h2, fun s' hs' => h5 _ hs', fun _ h => absurd h ht⟩
      unfold benchConstruct
      simp only [h1, ht', Bool.false_eq_true, if_false, Option.bind_eq_bind, Option.bind_some,
        bufferSize_right (s := s) (l := bytes ++ [0]) h3 (r := (.text, none)) (by decide) (h4 _ (base_written t b).1) rfl,
        bufferSize_right (s := s) (l := v.b.runs.first) h3 (r := (.first, none)) (by decide) (h4 _ (base_written t b).2) rfl, hr,
        List.length_append, List.length_singleton]
      rfl

end

/-- **C64** (partial): on a cache with any clean history, any number of iterations of the benchmark of a class reports the right counters. What is
    missing are the sub-sampled classes over the runs of psi, see `c64_psi_runs`. -/
theorem c64_counters_partial (bytes : List Nat) (h0 : ∀ c ∈ bytes, c ≠ 0) (hn : bytes.length + 1 < 2^64) (P : Process)
    (hP : CacheHistory bytes CleanDisk (Process.fresh Disk.empty) P) (t : IndexType) (b : BvKind) (s k : Nat)
    (ht : t.subsampled = true → t.overPsiRuns = false) :
    ∃ P' c, benchConstruct bytes t b s (k + 1) P.disk = some (P', c) ∧ CountersOK bytes (t, s) c := by
  obtain ⟨P', c, h1, h2, -⟩ := (bench_run h0 hn hP t b s k).2 (fun h1 h2 => by rw [ht h1] at h2; cases h2)
  exact ⟨P', c, h1, h2⟩

/-- **C64**, the sub-sampled classes over the runs of psi: `r'` is read from a file that their construction does not write. If the construction
    of another class at the same rate has left it, the counters are right, because both keep the same samples; otherwise there is nothing to
    read. -/
theorem c64_psi_runs (bytes : List Nat) (h0 : ∀ c ∈ bytes, c ≠ 0) (hn : bytes.length + 1 < 2^64) (P : Process)
    (hP : CacheHistory bytes CleanDisk (Process.fresh Disk.empty) P) (t : IndexType) (b : BvKind) (s k : Nat) (ht : t.subsampled = true)
    (hp : t.overPsiRuns = true) :
    (P.disk.HasForward s → ∃ P' c, benchConstruct bytes t b s (k + 1) P.disk = some (P', c) ∧ CountersOK bytes (t, s) c) ∧
    (¬ P.disk.HasForward s → benchConstruct bytes t b s (k + 1) P.disk = none) := by
  refine ⟨fun h => ?_, (bench_run h0 hn hP t b s k).1 ht hp⟩
  obtain ⟨P', c, h1, h2, -⟩ := (bench_run h0 hn hP t b s k).2 (fun _ _ => h)
  exact ⟨P', c, h1, h2⟩

/-- **C64**, the negation: in a new directory, these benchmarks report nothing, for every text and every rate; so with
    `--benchmark_filter=SR-CSA-Psi-Runs` the program fails -/
theorem c64_filter_violation (bytes : List Nat) (h0 : ∀ c ∈ bytes, c ≠ 0) (hn : bytes.length + 1 < 2^64) (b : BvKind)
    (iters : IndexType → Nat → Nat) (s : Nat) (rates : List Nat) (rest : List (IndexType × Nat)) :
    runBenchmarks bytes b iters ((s :: rates).map (fun s => (.srCSAWithPsiRun, s)) ++ rest) Disk.empty = none := by
  have := (c64_psi_runs bytes h0 hn _ .start .srCSAWithPsiRun b s (iters .srCSAWithPsiRun s) rfl rfl).2 (by
    intro h; cases h)
  rw [List.map_cons, List.cons_append, runBenchmarks]
  change (benchConstruct bytes .srCSAWithPsiRun b s (iters .srCSAWithPsiRun s + 1) Disk.empty).bind _ = none
  rw [show benchConstruct bytes .srCSAWithPsiRun b s (iters .srCSAWithPsiRun s + 1) Disk.empty = none from this]
  rfl

/-- the classes over the runs of psi come after another class at the same rate, or the file they read is there -/
def Ordered (D : Disk) (l : List (IndexType × Nat)) : Prop :=
  ∀ A t s B, l = A ++ (t, s) :: B → t.subsampled = true → t.overPsiRuns = true →
    D.HasForward s ∨ ∃ t', (t', s) ∈ A ∧ t'.subsampled = true ∧ keptRef t' = (.subFirstIdx, none)

theorem c64_run {bytes : List Nat} (h0 : ∀ c ∈ bytes, c ≠ 0) (hn : bytes.length + 1 < 2^64) (b : BvKind) (iters : IndexType → Nat → Nat) :
    ∀ (l : List (IndexType × Nat)) (P : Process), CacheHistory bytes CleanDisk (Process.fresh Disk.empty) P → Ordered P.disk l →
      ∃ D cs, runBenchmarks bytes b iters l P.disk = some (D, cs) ∧ List.Forall₂ (CountersOK bytes) l cs
  | [], P, _, _ => ⟨P.disk, [], rfl, .nil⟩
  | (t, s) :: rest, P, hP, hO => by
    obtain ⟨P', c, h1, h2, h3, h4, h5⟩ := (bench_run h0 hn hP t b s (iters t s)).2 (fun g1 g2 => by
      rcases hO [] t s rest rfl g1 g2 with h | ⟨_, h, -⟩
      · exact h
      · cases h)
    obtain ⟨D, cs, g1, g2⟩ := c64_run h0 hn b iters rest P' h3 (by
      intro A t' s' B e k1 k2
      rcases hO ((t, s) :: A) t' s' B (by rw [e]; rfl) k1 k2 with h | ⟨t'', h, k3, k4⟩
      · exact Or.inl (h4 _ h)
      · rcases List.mem_cons.1 h with h | h
        · cases h; exact Or.inl (h5 k4 k3)
        · exact Or.inr ⟨t'', h, k3, k4⟩)
    refine ⟨D, c :: cs, ?_, .cons h2 g2⟩
    rw [runBenchmarks, h1]
    simp only [Option.bind_eq_bind, Option.bind_some, g1]
    rfl

/-- **C64**: the program for the SR-index classes, with any filter, reports the right counters for every benchmark it runs -/
theorem c64_ri_program (bytes : List Nat) (h0 : ∀ c ∈ bytes, c ≠ 0) (hn : bytes.length + 1 < 2^64) (P : Process)
    (hP : CacheHistory bytes CleanDisk (Process.fresh Disk.empty) P) (b : BvKind) (iters : IndexType → Nat → Nat) (rates : List Nat)
    (l : List (IndexType × Nat)) (hl : l.Sublist (riBenchmarks rates)) :
    ∃ D cs, runBenchmarks bytes b iters l P.disk = some (D, cs) ∧ List.Forall₂ (CountersOK bytes) l cs := by
  refine c64_run h0 hn b iters l P hP ?_
  intro A t s B e _ hp
  have : (t, s) ∈ riBenchmarks rates := hl.subset (by rw [e]; simp)
  simp only [riBenchmarks, List.mem_append, List.mem_map, List.mem_singleton, Prod.mk.injEq] at this
  rcases this with ((h | ⟨_, -, h, -⟩) | ⟨_, -, h, -⟩) | ⟨_, -, h, -⟩
  · rw [h.1] at hp; cases hp
  all_goals rw [← h] at hp; cases hp

/-- **C64**: the program for the SR-CSA classes, without a filter, reports the right counters for all its benchmarks -/
theorem c64_csa_program (bytes : List Nat) (h0 : ∀ c ∈ bytes, c ≠ 0) (hn : bytes.length + 1 < 2^64) (P : Process)
    (hP : CacheHistory bytes CleanDisk (Process.fresh Disk.empty) P) (b : BvKind) (iters : IndexType → Nat → Nat) (rates : List Nat) :
    ∃ D cs, runBenchmarks bytes b iters (csaBenchmarks rates) P.disk = some (D, cs) ∧ List.Forall₂ (CountersOK bytes) (csaBenchmarks rates) cs := by
  refine c64_run h0 hn b iters _ P hP ?_
  intro A t s B e ht hp
  refine Or.inr ⟨.srCSA, ?_, rfl, rfl⟩
  have hs : s ∈ rates := by
    have : (t, s) ∈ csaBenchmarks rates := by rw [e]; simp
    simp only [csaBenchmarks, List.mem_append, List.mem_map, List.mem_cons, List.not_mem_nil, Prod.mk.injEq, or_false] at this
    rcases this with (((((((h | h) | h) | h) | h) | h) | h) | h)
    · rcases h with h | h <;> rw [h.1] at ht <;> cases ht
    all_goals obtain ⟨x, hx, -, rfl⟩ := h; exact hx
  -- the front part of the list has `(srCSA, s)` and nothing over the runs of psi
  have hsplit : ∃ F G, csaBenchmarks rates = F ++ G ∧ (.srCSA, s) ∈ F ∧ ∀ q ∈ F, q.1.subsampled = true → q.1.overPsiRuns = false := by
    refine ⟨[(.rcsaWithBWTRun, 0), (.rcsaWithPsiRun, 0)] ++ rates.map (fun s => (.srCSA, s)), _, by unfold csaBenchmarks; simp only [List.append_assoc]; rfl, ?_, ?_⟩
    · simp [hs]
    · intro q hq h
      simp only [List.mem_append, List.mem_map, List.mem_cons, List.not_mem_nil, or_false] at hq
      rcases hq with (rfl | rfl) | ⟨x, -, rfl⟩
      · cases h
      · cases h
      · rfl
  obtain ⟨F, G, e2, hF, hno⟩ := hsplit
  rw [e2] at e
  rcases List.append_eq_append_iff.1 e with ⟨C, rfl, -⟩ | ⟨C, rfl, e3⟩
  · exact List.mem_append_left _ hF
  · cases C with
    | nil => simpa using hF
    | cons x C =>
      rw [List.cons_append, List.cons.injEq] at e3
      have := hno (t, s) (by rw [e3.1]; simp) ht
      rw [hp] at this
      cases this

/-- **C64**: SrCSAWithPsiRun keeps samples of the same text positions as SrCSA at the same rate -/
theorem c64_same_samples (T sa : List Nat) (hT : IsText T) (hsa : IsSA T sa) (hn : T.length < 2^64) (s : Nat) :
    ∃ I J, SrCSA.build T sa s = some I ∧ SrCSA.buildPsi T sa s = some J ∧ J.samples.Perm I.samples := by
  obtain ⟨v⟩ := baseVals_exist hT hsa hn
  have w : ∀ s, RateVals v s := fun s => Classical.choice (rateVals_exist hT hsa hn v s)
  have h1 := partsOf_vals (v := v) (w := w) .srCSA s
  have h2 := partsOf_vals (v := v) (w := w) .srCSAWithPsiRun s
  simp only [partsOf, Option.map_eq_some_iff] at h1 h2
  obtain ⟨I, h1, e1⟩ := h1
  obtain ⟨J, h2, e2⟩ := h2
  refine ⟨I, J, h1, h2, ?_⟩
  have g1 : I.samples = (w s).samplesF := congrArg Parts.samples e1
  have g2 : J.samples = (w s).samplesP := congrArg Parts.samples e2
  rw [g1, g2]
  exact kept_same hT hsa hn (w s)

/-! ## Non-vacuity -/

-- a text of 11 symbols; the counters of the programs at the rates 3 and 8 on an empty directory, two iterations of each benchmark
example : (runBenchmarks [1, 2, 3, 1, 2, 3, 1, 2, 1, 2, 3] .sd (fun _ _ => 1) (riBenchmarks [3, 8]) Disk.empty).map (·.2) =
    some [⟨12, 6, 0, 0⟩, ⟨0, 0, 3, 5⟩, ⟨0, 0, 8, 4⟩, ⟨0, 0, 3, 5⟩, ⟨0, 0, 8, 4⟩, ⟨0, 0, 3, 5⟩, ⟨0, 0, 8, 4⟩] := by decide +kernel
example : ((runBenchmarks [1, 2, 3, 1, 2, 3, 1, 2, 1, 2, 3] .sd (fun _ _ => 0) [(.srCSA, 3), (.srCSAWithPsiRun, 3)] Disk.empty).map (·.2) =
    some [⟨0, 0, 3, 5⟩, ⟨0, 0, 3, 5⟩]) ∧
    runBenchmarks [1, 2, 3, 1, 2, 3, 1, 2, 1, 2, 3] .sd (fun _ _ => 0) [(.srCSA, 3), (.srCSAWithPsiRun, 8)] Disk.empty = none := by
  refine ⟨by decide +kernel, ?_⟩
  have : (runBenchmarks [1, 2, 3, 1, 2, 3, 1, 2, 1, 2, 3] .sd (fun _ _ => 0) [(.srCSA, 3), (.srCSAWithPsiRun, 8)] Disk.empty).isNone = true := by
    decide +kernel
  simpa using this
example : CacheHistory [1, 2, 3, 1, 2, 3, 1, 2, 1, 2, 3] CleanDisk (Process.fresh Disk.empty) (Process.fresh Disk.empty) := .start

end Sri

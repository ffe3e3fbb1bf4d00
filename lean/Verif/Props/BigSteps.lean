import Verif.Proofs.BigSteps
import Verif.Props.Crash
/-! # C54: the choice of the suffix-array algorithm -/
namespace Sri
set_option autoImplicit false

/-- what happens to a data file and one cache for it: constructions that complete, with any of the algorithms, and new processes -/
inductive AlgoHistory (bytes : List Nat) (tool : Option BigFiles) : DataProcess → Prop
  | start : AlgoHistory bytes tool ⟨none, Process.fresh Disk.empty⟩
  | construct {W : DataProcess} {es : List CacheEvent} {data : Option BigFiles} {P : Process} (algo : SAAlgo) (t : IndexType) (b : BvKind)
      (s : Nat) : AlgoHistory bytes tool W → constructAlgo algo tool bytes t b s W = (es, data, some P) → AlgoHistory bytes tool ⟨data, P⟩
  | restart {W : DataProcess} : AlgoHistory bytes tool W → AlgoHistory bytes tool ⟨W.data, Process.fresh W.P.disk⟩

/-- the files of the tool are there only if the BWT is in the cache -/
structure AlgoOK {T sa : List Nat} (v : BaseVals T sa) (w : ∀ s, RateVals v s) (W : DataProcess) : Prop where
  sound : Sound (ideal v w) W.P
  clean : CleanDisk W.P.disk
  files : ∀ f, W.data = some f → f = toolFiles T sa
  bwt : W.data.isSome = true → ∀ s, (W.P.disk (FileRef.file s (.bwt, none))).isSome = true

section
variable {T sa bytes : List Nat} {v : BaseVals T sa} {w : ∀ s, RateVals v s}

theorem bwt_file (s s' : Nat) : FileRef.file s (.bwt, none) = FileRef.file s' (.bwt, none) := file_eq_of_plain rfl s s'

theorem algo_run (h : Input bytes T sa) (hT : IsText T) (hsa : IsSA T sa) (hn : T.length < 2^40) (hw : ∀ c ∈ T, c ∉ whiteSpace)
    {W : DataProcess} (hW : AlgoOK v w W) (algo : SAAlgo) (t : IndexType) (b : BvKind) (s : Nat) :
    ∃ es data P outs, constructAlgo algo (some (toolFiles T sa)) bytes t b s W = (es, data, some P) ∧ AlgoOK v w ⟨data, P⟩ ∧
      Ran (ideal v w) s W.P outs es P ∧ ∀ a ∈ accesses t b, accessRef t a ∈ outs := by
  have sdsl : ∃ es P, runSteps bytes s (program t b) W.P = (es, some P) ∧ AlgoOK v w ⟨W.data, P⟩ ∧ Ran (ideal v w) s W.P (outputsOf (program t b)) es P := by
    obtain ⟨es, P, h1, h2⟩ := construct_run h t b s hW.sound hW.clean
    exact ⟨es, P, h1, ⟨h2.sound, hW.clean.after (prefix_closed (List.append_nil _).symm) (psi_check t b) h2, hW.files,
      fun hd s' => h2.keeps (hW.bwt hd s')⟩, h2⟩
  cases algo with
  | bigBWT =>
    obtain ⟨es, P, h1, h2, h3⟩ := big_run h hT hsa hn hw t b s hW.sound hW.clean hW.files (fun hd => hW.bwt hd s)
    refine ⟨es, W.data.or (some (toolFiles T sa)), P, _, by simp only [constructAlgo, h1], ⟨h3.sound, h2, ?_, ?_⟩, h3, ?_⟩
    · intro f hf
      cases hd : W.data with
      | none => rw [hd] at hf; exact (Option.some_inj.1 hf).symm
      | some g =>
        rw [hd] at hf
        obtain rfl : g = f := Option.some_inj.1 hf
        exact hW.files g hd
    · intro _ s'
      rw [bwt_file s' s]
      exact h3.all _ (List.mem_append_left _ (by decide))
    · intro a ha
      have := access_written t b a ha
      rw [program_later, show outputsOf (Steps.base ++ laterSteps t b) = outputsOf Steps.base ++ outputsOf (laterSteps t b) from List.flatMap_append] at this
      rcases List.mem_append.1 this with h | h
      · refine List.mem_append_left _ ?_
        have hne : ∀ a ∈ accesses t b, accessRef t a ≠ (.text, none) ∧ accessRef t a ≠ (.sa, none) := by cases t <;> cases b <;> decide +kernel
        obtain ⟨n1, n2⟩ := hne a ha
        have hsub : ∀ r ∈ outputsOf Steps.base, r ≠ (.text, none) → r ≠ (.sa, none) → r ∈ baseRefs := by decide +kernel
        exact hsub _ h n1 n2
      · exact List.mem_append_right _ h
  | sdslLibdivsufsort =>
    obtain ⟨es, P, h1, h2, h3⟩ := sdsl
    exact ⟨es, W.data, P, _, by simp only [constructAlgo, h1], h2, h3, access_written t b⟩
  | sdslSeSais =>
    obtain ⟨es, P, h1, h2, h3⟩ := sdsl
    exact ⟨es, W.data, P, _, by simp only [constructAlgo, h1], h2, h3, access_written t b⟩

end

/-- **C54** (partial): take one data file without white space, shorter than 2^40 bytes, and one cache for it, and any history of completed
    constructions with any mix of the algorithms. Then the construction of any index with any algorithm completes, and what it leaves loads
    as the very index the first algorithm gives. The tool is assumed to leave the files `toolFiles`. Missing: white space (C36), and
    caches that do not have the BWT although the files of the tool are there, for which the property is false
    (`c54_other_directory_violation`, `c54_crash_violation`). -/
theorem c54_algorithms_partial {α : Type} (K : Codec α) (bytes : List Nat) (h0 : ∀ c ∈ bytes, c ≠ 0) (hw : ∀ c ∈ bytes, c ∉ whiteSpace)
    (hn : bytes.length + 1 < 2^40) (W : DataProcess)
    (hW : AlgoHistory bytes (some (toolFiles (bytes ++ [0]) (suffixArray (bytes ++ [0])))) W) (algo : SAAlgo) (t : IndexType) (b : BvKind) (s : Nat) :
    ∃ es data P' q, constructAlgo algo (some (toolFiles (bytes ++ [0]) (suffixArray (bytes ++ [0])))) bytes t b s W = (es, data, some P') ∧
      loadIn K t b s P' = some q ∧ indexFromBytes t bytes s = some q ∧
      ∀ X, X ≠ [] → (∀ c ∈ X, c ∈ bytes) → ∃ i j l, q.count X = some (i, j) ∧ q.locate X = some l ∧ i ≤ j ∧
        j - i = (occurrences X bytes).length ∧ l.Perm (occurrences X bytes) := by
  have hn64 : bytes.length + 1 < 2^64 := Nat.lt_trans hn (by decide)
  obtain ⟨v, ⟨w⟩⟩ := ideal_exists h0 hn64
  have hin := input_of_bytes h0
  have hT : IsText (bytes ++ [0]) := ⟨bytes, rfl, h0⟩
  have hsa := suffixArray_isSA (bytes ++ [0])
  have hl : (bytes ++ [0]).length < 2^40 := by simpa using hn
  have hw' : ∀ c ∈ bytes ++ [0], c ∉ whiteSpace := by
    intro c hc
    rcases List.mem_append.1 hc with hc | hc
    · exact hw c hc
    · rw [List.mem_singleton] at hc; subst hc; decide
  have inv : AlgoOK v w W := by
    induction hW with
    | start => exact ⟨sound_empty _, cleanDisk_empty, fun _ h => by simp at h, fun h => by simp at h⟩
    | construct algo t b s _ hc ih =>
      obtain ⟨es, data, P, outs, h1, h2, -⟩ := algo_run hin hT hsa hl hw' ih algo t b s
      rw [h1] at hc
      simp only [Prod.mk.injEq, Option.some.injEq] at hc
      obtain ⟨-, rfl, rfl⟩ := hc
      exact h2
    | restart _ ih => exact ⟨⟨ih.sound.right, ih.sound.whole, fun _ _ h => by cases h⟩, ih.clean, ih.files, ih.bwt⟩
  obtain ⟨es, data, P', outs, h1, -, h2, h3⟩ := algo_run hin hT hsa hl hw' inv algo t b s
  obtain ⟨p, hp, hC⟩ := ran_hasIndex_of h2 h3
  obtain ⟨I, S, h3, -, h4, -⟩ := load_constructed K hp hC (S := []) (fun _ _ => Or.inl rfl)
  obtain ⟨q, h5, h6⟩ := c01_end_to_end t bytes h0 hn64 s
  refine ⟨es, data, P', q, h1, ?_, h5, h6⟩
  unfold loadIn
  unfold rateArg at h3
  rw [h3]
  simp only [Option.bind_eq_bind, Option.bind_some]
  rw [h4, ← h5]
  unfold indexFromBytes
  rw [hin.text]

/-! ## The BWT is not in the cache although the files of the tool are there -/

/-- a cache without BWT (or with a torn one) and without alphabet -/
structure NoBwt (P : Process) : Prop where
  bwt : ∀ s, (P.disk (FileRef.file s (.bwt, none))).bind id = none
  alphabet : ∀ s, P.disk (FileRef.file s (.alphabet, none)) = none
  map : MapOK P.fileMap

theorem noBwt_other {D : Disk} {es : List CacheEvent} {r : FileRef}
    (h : ∀ e ∈ es, ∃ s, ∃ q ∈ [((.first, none) : FileRef), (.firstTextPos, none), (.last, none), (.lastTextPos, none)], FileRef.file s q = e.file)
    (hq : r ∉ [((.first, none) : FileRef), (.firstTextPos, none), (.last, none), (.lastTextPos, none)]) (s : Nat) :
    (D.applyAll es) (r.file s) = D (r.file s) := by
  induction es generalizing D with
  | nil => rfl
  | cons e es ih =>
    have := ih (D := D.apply e) (fun e' he' => h e' (List.mem_cons_of_mem _ he'))
    change ((D.apply e).applyAll es) _ = _
    rw [this]
    obtain ⟨s', q, hq1, hq2⟩ := h e List.mem_cons_self
    have hne : r.file s ≠ e.file := by
      intro he
      rw [← hq2] at he
      obtain ⟨rfl, -⟩ := file_inj he
      exact hq hq1
    cases e with
    | opened f => exact if_neg hne
    | closed f x => exact if_neg hne

theorem noBwt_run (f : BigFiles) (tool : Option BigFiles) (bytes : List Nat) (t : IndexType) (b : BvKind) (s : Nat) {P : Process} (hP : NoBwt P) :
    (∀ e ∈ (constructAlgo .bigBWT tool bytes t b s ⟨some f, P⟩).1, ∃ s, ∃ q ∈ [((.first, none) : FileRef), (.firstTextPos, none), (.last, none), (.lastTextPos, none)], FileRef.file s q = e.file) ∧
      (constructAlgo .bigBWT tool bytes t b s ⟨some f, P⟩).2.2 = none := by
  have alph : ∀ Q : Process, NoBwt Q → runSteps bytes s (Steps.alphabet :: Steps.bwtRle :: laterSteps t b) Q = ([], none) := by
    intro Q hQ
    have h1 : Q.has (FileRef.file s (.alphabet, none)) = false := by
      unfold Process.has
      rw [hQ.map.fileName (by decide), hQ.alphabet]; rfl
    have h2 : Steps.alphabet.run bytes s Q = none := by
      unfold CacheStep.run
      simp only [Steps.alphabet, List.mapM_cons, CacheRead.run, hQ.map.fileName (show ((.bwt, none) : FileRef) ≠ (.subPsiIdx, none) by decide), hQ.bwt, Option.bind_eq_bind, Option.bind_none]
    rw [runSteps_cons, if_neg (by simp [Steps.alphabet, h1]), h2]
  have hsteps : Steps.bigBase (some f) tool ++ laterSteps t b = Steps.bwtRunsBig (some f) :: Steps.alphabet :: Steps.bwtRle :: laterSteps t b := rfl
  simp only [constructAlgo, hsteps]
  rw [runSteps_cons]
  split
  · rw [alph P hP]; exact ⟨by simp, rfl⟩
  · have hr : ∃ es, (Steps.bwtRunsBig (some f)).run bytes s P = some es ∧ ∀ e ∈ es, ∃ q ∈ [((.first, none) : FileRef), (.firstTextPos, none), (.last, none), (.lastTextPos, none)], FileRef.file s q = e.file :=
      ⟨_, rfl, fun e he => storeEvents_only s _ _ e he⟩
    obtain ⟨es, h1, h2⟩ := hr
    rw [h1]
    dsimp only
    have hQ : NoBwt ((Steps.bwtRunsBig (some f)).after s es P) := by
      have h3 : ∀ e ∈ es, ∃ s, ∃ q ∈ [((.first, none) : FileRef), (.firstTextPos, none), (.last, none), (.lastTextPos, none)], FileRef.file s q = e.file :=
        fun e he => ⟨s, h2 e he⟩
      refine ⟨fun s' => ?_, fun s' => ?_, hP.map⟩
      · change ((P.disk.applyAll es) _).bind id = none
        rw [noBwt_other h3 (by decide)]; exact hP.bwt s'
      · change (P.disk.applyAll es) _ = none
        rw [noBwt_other h3 (by decide)]; exact hP.alphabet s'
    rw [alph _ hQ]
    refine ⟨?_, rfl⟩
    intro e he
    rw [List.append_nil] at he
    exact ⟨s, h2 e he⟩

/-- attempts to construct indexes with Big-BWT on a cache, each in a new process, stopped at any point or run until they fail -/
inductive BigAttempts (bytes : List Nat) (tool : Option BigFiles) (f : BigFiles) (D : Disk) : Disk → Prop
  | start : BigAttempts bytes tool f D D
  | attempt {D' : Disk} (t : IndexType) (b : BvKind) (s k : Nat) : BigAttempts bytes tool f D D' →
      BigAttempts bytes tool f D (D'.applyAll ((constructAlgo .bigBWT tool bytes t b s ⟨some f, Process.fresh D'⟩).1.take k))

theorem attempts_fail {bytes : List Nat} {tool : Option BigFiles} {f : BigFiles} {D D' : Disk} (hD : NoBwt (Process.fresh D))
    (h : BigAttempts bytes tool f D D') : NoBwt (Process.fresh D') := by
  induction h with
  | start => exact hD
  | @attempt D' t b s k _ ih =>
    have h3 := fun e (he : e ∈ ((constructAlgo .bigBWT tool bytes t b s ⟨some f, Process.fresh D'⟩).1.take k)) =>
      (noBwt_run f tool bytes t b s ih).1 e (List.mem_of_mem_take he)
    refine ⟨fun s' => ?_, fun s' => ?_, fun _ _ h => by cases h⟩
    · change ((D'.applyAll _) _).bind id = none
      rw [noBwt_other h3 (by decide)]; exact ih.bwt s'
    · change (D'.applyAll _) _ = none
      rw [noBwt_other h3 (by decide)]; exact ih.alphabet s'

/-- **C54**, violation 1: if the files of the tool lie beside the data file - say, from a construction with another output directory -
    and the directory of the cache is empty, no construction with Big-BWT completes, for no data, no index type and no rate, however often
    it is tried: the step that stores the BWT is skipped because the file of the tool exists, and nothing else stores it. -/
theorem c54_other_directory_violation (bytes : List Nat) (tool : Option BigFiles) (f : BigFiles) (D : Disk)
    (h : BigAttempts bytes tool f Disk.empty D) (t : IndexType) (b : BvKind) (s : Nat) :
    (constructAlgo .bigBWT tool bytes t b s ⟨some f, Process.fresh D⟩).2.2 = none :=
  (noBwt_run f tool bytes t b s (attempts_fail ⟨fun _ => rfl, fun _ => rfl, fun _ _ h => by cases h⟩ h)).2

/-- **C54**, violation 2: after a crash of the very first construction while the BWT is copied from the file of the tool (`k` is 0 or 1:
    the copy is not opened, or not closed) no construction with Big-BWT completes any more. -/
theorem c54_crash_violation (bytes : List Nat) (f : BigFiles) (t₀ : IndexType) (b₀ : BvKind) (s₀ k : Nat) (hk : k ≤ 1) (D : Disk)
    (h : BigAttempts bytes (some f) f
      (Disk.empty.applyAll ((constructAlgo .bigBWT (some f) bytes t₀ b₀ s₀ ⟨none, Process.fresh Disk.empty⟩).1.take k)) D)
    (t : IndexType) (b : BvKind) (s : Nat) :
    (constructAlgo .bigBWT (some f) bytes t₀ b₀ s₀ ⟨none, Process.fresh Disk.empty⟩).2.1 = some f ∧
    (constructAlgo .bigBWT (some f) bytes t b s ⟨some f, Process.fresh D⟩).2.2 = none := by
  refine ⟨rfl, (noBwt_run f (some f) bytes t b s (attempts_fail ?_ h)).2⟩
  have hev : (constructAlgo .bigBWT (some f) bytes t₀ b₀ s₀ ⟨none, Process.fresh Disk.empty⟩).1.take k = [] ∨
      (constructAlgo .bigBWT (some f) bytes t₀ b₀ s₀ ⟨none, Process.fresh Disk.empty⟩).1.take k = [.opened (FileRef.file s₀ (.bwt, none))] := by
    rcases Nat.le_one_iff_eq_zero_or_eq_one.1 hk with rfl | rfl
    · exact Or.inl rfl
    · exact Or.inr rfl
  rcases hev with e | e
  · rw [e]; exact ⟨fun _ => rfl, fun _ => rfl, fun _ _ h => by cases h⟩
  · rw [e]
    refine ⟨fun s' => ?_, fun s' => ?_, fun _ _ h => by cases h⟩
    · change (if FileRef.file s' (.bwt, none) = FileRef.file s₀ (.bwt, none) then some none else none : Option (Option Item)).bind id = none
      split <;> rfl
    · change (if FileRef.file s' (.alphabet, none) = FileRef.file s₀ (.bwt, none) then some none else none : Option (Option Item)) = none
      rw [if_neg]
      intro he
      exact absurd (file_inj he).1 (by decide)

/-- **C54**, the names of the algorithms: exactly three are accepted, and each chooses its own algorithm -/
theorem c54_names (name : String) :
    (toSAAlgo name = some .sdslLibdivsufsort ↔ name = "SDSL_LIBDIVSUFSORT") ∧ (toSAAlgo name = some .sdslSeSais ↔ name = "SDSL_SE_SAIS") ∧
    (toSAAlgo name = some .bigBWT ↔ name = "BIG_BWT") ∧
    (toSAAlgo name = none ↔ name ∉ ["SDSL_LIBDIVSUFSORT", "SDSL_SE_SAIS", "BIG_BWT"]) := by
  by_cases h : name = "SDSL_LIBDIVSUFSORT"
  · subst h; decide
  · by_cases h' : name = "SDSL_SE_SAIS"
    · subst h'; decide
    · by_cases h'' : name = "BIG_BWT"
      · subst h''; decide
      · have e : toSAAlgo name = none := by
          simp [toSAAlgo, List.lookup, beq_eq_false_iff_ne.2 h, beq_eq_false_iff_ne.2 h', beq_eq_false_iff_ne.2 h'']
        simp [e, h, h', h'']

-- "ababb": the hypotheses hold, and a construction with Big-BWT in an empty directory gives the items
example : (∀ c ∈ [97, 98, 97, 98, 98], c ≠ 0) ∧ (∀ c ∈ [97, 98, 97, 98, 98], c ∉ whiteSpace) := by decide
example : ((constructAlgo .bigBWT (some (toolFiles [97, 98, 97, 98, 98, 0] [5, 0, 2, 4, 1, 3])) [97, 98, 97, 98, 98] .rIndex .sd 0
    ⟨none, Process.fresh Disk.empty⟩).2.2.map (fun P => P.disk (FileRef.file 0 (.lastTextPos, none)))) = some (some (some (.ints [4, 5, 3, 2]))) := by
  decide +kernel

end Sri

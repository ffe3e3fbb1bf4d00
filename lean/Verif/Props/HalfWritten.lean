import Verif.Props.FailedWrites
import Verif.Proofs.Torn
import Verif.Proofs.Sharing
/-! # C34: a crash while one of the first files is being written -/
namespace Sri
set_option autoImplicit false

/-- if all constructions fail before their first store, the directory never changes -/
theorem fail_forever {bytes : List Nat} {D : Disk} (h : ∀ t b s, runSteps bytes s (program t b) (Process.fresh D) = ([], none)) {P : Process}
    (hP : CacheHistory bytes (fun _ => True) (Process.fresh D) P) : P = Process.fresh D := by
  induction hP with
  | start => rfl
  | construct t b s _ hc ih =>
    subst ih
    unfold constructIn at hc
    rw [h] at hc
    cases hc
  | crash t b s k _ _ ih =>
    subst ih
    unfold constructEvents
    rw [h, List.take_nil]
    rfl
  | restart _ ih => rw [ih]; rfl

/-- **C34**, violation 4: for every text, index type and rate, a crash while the text, the suffix array or the BWT is being written: the 1st, 3rd
    and 5th stores of a construction open these files. The file is there but not complete, later constructions take it for done, and none of
    them ever completes: of no index, after no history of constructions, crashes and new processes, at no rate. -/
theorem c34_half_written_violation (bytes : List Nat) (h0 : ∀ c ∈ bytes, c ≠ 0) (t : IndexType) (b : BvKind) (s k : Nat)
    (hk : k = 1 ∨ k = 3 ∨ k = 5) (D : Disk) (hD : D = Disk.empty.applyAll ((constructEvents bytes t b s (Process.fresh Disk.empty)).take k)) :
    (∃ f, D f = some none) ∧
      ∀ P, CacheHistory bytes (fun _ => True) (Process.fresh D) P → ∀ t' b' s', constructIn bytes t' b' s' P = none := by
  have ht : constructText bytes = .stored (bytes ++ [0]) := (c35_construct_text bytes).1 h0
  have hkt : ∀ s : Nat, FileRef.file s (.text, none) = FileRef.file 0 (.text, none) := fun s => file_eq_of_plain rfl s 0
  have hks : ∀ s : Nat, FileRef.file s (.sa, none) = FileRef.file 0 (.sa, none) := fun s => file_eq_of_plain rfl s 0
  have hkb : ∀ s : Nat, FileRef.file s (.bwt, none) = FileRef.file 0 (.bwt, none) := fun s => file_eq_of_plain rfl s 0
  have hkf : ∀ s : Nat, FileRef.file s (.first, none) = FileRef.file 0 (.first, none) := fun s => file_eq_of_plain rfl s 0
  have n1 : FileRef.file 0 (.sa, none) ≠ FileRef.file 0 (.text, none) := by decide
  have n2 : FileRef.file 0 (.bwt, none) ≠ FileRef.file 0 (.text, none) := by decide
  have n3 : FileRef.file 0 (.bwt, none) ≠ FileRef.file 0 (.sa, none) := by decide
  have n4 : FileRef.file 0 (.first, none) ≠ FileRef.file 0 (.text, none) := by decide
  have n5 : FileRef.file 0 (.first, none) ≠ FileRef.file 0 (.sa, none) := by decide
  have n6 : FileRef.file 0 (.first, none) ≠ FileRef.file 0 (.bwt, none) := by decide
  generalize hT : FileRef.file 0 (.text, none) = fT at *
  generalize hS : FileRef.file 0 (.sa, none) = fS at *
  generalize hB : FileRef.file 0 (.bwt, none) = fB at *
  generalize hF : FileRef.file 0 (.first, none) = fF at *
  -- the first six stores
  obtain ⟨es, he⟩ : ∃ es, constructEvents bytes t b s (Process.fresh Disk.empty) =
      .opened fT :: .closed fT (.ints (bytes ++ [0])) :: .opened fS :: .closed fS (.ints (suffixArray (bytes ++ [0]))) :: .opened fB :: es := by
    obtain ⟨rest, e⟩ := program_base4 t b
    unfold constructEvents
    rw [e]
    simp [runSteps, CacheStep.after, Steps.text, Steps.sa, Steps.bwt, CacheStep.run, CacheRead.run, storeEvents, Process.has, Process.fresh,
      Process.fileName, Disk.empty, Disk.applyAll, Disk.apply, ht, hkt, hks, hkb, n1, n2, n3, n1.symm]
  rw [he] at hD
  have main : (∃ f, D f = some none) ∧ ∀ t b s, runSteps bytes s (program t b) (Process.fresh D) = ([], none) := by
    rcases hk with rfl | rfl | rfl
    · refine ⟨⟨fT, by rw [hD]; simp [Disk.applyAll, Disk.apply]⟩, fun t b s => ?_⟩
      obtain ⟨rest, e⟩ := program_base4 t b
      rw [e, hD]
      simp [runSteps, Steps.text, Steps.sa, CacheStep.run, CacheRead.run, Process.has, Process.fresh,
        Process.fileName, Disk.empty, Disk.applyAll, Disk.apply, hkt, hks, n1]
    · refine ⟨⟨fS, by rw [hD]; simp [Disk.applyAll, Disk.apply]⟩, fun t b s => ?_⟩
      obtain ⟨rest, e⟩ := program_base4 t b
      rw [e, hD]
      simp [runSteps, Steps.text, Steps.sa, Steps.bwt, CacheStep.run, CacheRead.run, Process.has, Process.fresh,
        Process.fileName, Disk.empty, Disk.applyAll, Disk.apply, hkt, hks, hkb, n1.symm, n2, n3]
    · refine ⟨⟨fB, by rw [hD]; simp [Disk.applyAll, Disk.apply]⟩, fun t b s => ?_⟩
      obtain ⟨rest, e⟩ := program_base4 t b
      rw [e, hD]
      simp [runSteps, Steps.text, Steps.sa, Steps.bwt, Steps.bwtRuns, CacheStep.run, CacheRead.run, Process.has, Process.fresh,
        Process.fileName, Disk.empty, Disk.applyAll, Disk.apply, hkt, hks, hkb, hkf, n1.symm, n2.symm, n3.symm, n4, n5, n6]
  refine ⟨main.1, fun P hP t' b' s' => ?_⟩
  rw [fail_forever main.2 hP]
  unfold constructIn
  rw [main.2]

-- on the text of the examples: the construction has these points, and goes on after them
example : ((constructEvents exBytes .rIndex .sd 1 (Process.fresh Disk.empty)).take 5).length = 5 ∧
    (constructIn exBytes .rIndex .sd 1 (Process.fresh Disk.empty)).isSome = true := by decide +kernel

/-! ## The other files -/

/-- files that are open at the same time in a construction, and the files whose presence keeps the steps that read them from being run -/
def tornTable : List (List FileRef × List FileRef) :=
  [([(.text, none)], [(.sa, none), (.bwt, none)]),
   ([(.sa, none)], [(.bwt, none), (.first, none)]),
   ([(.bwt, none)], [(.first, none), (.alphabet, none), (.bwtRle, none), (.firstTextPos, some .sdVector), (.subFirstByLast, some .sdVector),
    (.lastTextPos, some .sdVector), (.psiLast, some .sdVector), (.subLastByFirst, some .sdVector), (.subFirstPos, some .sdVector),
    (.subFirstPos, some .bitVector), (.subPsiLast, some .sdVector)]),
   ([(.first, none), (.firstTextPos, none), (.last, none), (.lastTextPos, none)], [(.firstToLast, none), (.firstTextPos, some .sdVector),
    (.lastSorted, none), (.subLastIdx, none), (.subLastIdx, some .sdVector), (.subFirstToLast, none), (.subLastIdx, some .bitVector),
    (.validFirstMark, none), (.lastToFirst, none), (.lastTextPos, some .sdVector), (.psiFirst, some .ints), (.firstSorted, none), (.subFirstIdx,
    none), (.subLastToFirst, none), (.subFirstPos, none), (.validLastMark, none), (.alphaIdx, none), (.alphaSubIdx, some .sdVector),
    (.alphaSubIdx, some .bitVector)]),
   ([(.firstToLast, none)], [(.subLastIdx, none)]),
   ([(.subLastIdx, none)], [(.subLastIdx, some .sdVector), (.subFirstToLast, none), (.subLastIdx, some .bitVector)]),
   ([(.validFirstMark, none), (.validFirstArea, none)], [(.validFirstMark, some .bitVector)]),
   ([(.lastToFirst, none)], [(.subFirstIdx, none)]),
   ([(.psiLink, some .ints)], [(.subPsiFirst, some .ints)]),
   ([(.subFirstIdx, none)], [(.subLastToFirst, none), (.subFirstPos, none), (.alphaSubFirst, none)]),
   ([(.subLastToFirst, none)], [(.alphaSubFirst, none)]),
   ([(.subFirstPos, none)], [(.subFirstPos, some .sdVector), (.subFirstPos, some .bitVector)]),
   ([(.validLastMark, none), (.validLastArea, none)], [(.validLastMark, some .bitVector)]),
   ([(.alphaIdx, none), (.cumRuns, none)], [(.alphaSubFirst, none)]),
   ([(.alphaSubFirst, none), (.alphaSubIdx, none)], [(.alphaSubIdx, some .sdVector), (.alphaSubIdx, some .bitVector)]),
   ([(.psiFirstAsc, none)], [(.subPsiFirst, some .ints)]),
   ([(.validPsiMark, some .ints)], [(.validPsiMark, some .bitVector)])]

def tornGroups : List (List FileRef) := tornTable.map Prod.fst

/-- a file that some step of some construction makes from one of the files `H` -/
def MadeFrom (H : List FileRef) (r : FileRef) : Prop := ∃ t b, ∃ st ∈ program t b, readsOne H st = true ∧ r ∈ st.outputs.flatten

theorem torn_made : ∀ q ∈ tornTable, ∀ r ∈ q.2, MadeFrom q.1 r := by
  have : ∀ q ∈ tornTable, (q.2.all (fun r => allTypes.any (fun t => [BvKind.sd, .plain].any (fun b =>
      (program t b).any (fun st => readsOne q.1 st && decide (r ∈ st.outputs.flatten)))))) = true := by decide +kernel
  intro q hq r hr
  have h := List.all_eq_true.1 (this q hq) r hr
  simp only [List.any_eq_true, Bool.and_eq_true, decide_eq_true_iff] at h
  obtain ⟨t, -, b, -, st, h1, h2, h3⟩ := h
  exact ⟨t, b, st, h1, h2, h3⟩

theorem torn_names : ∀ q ∈ tornTable, tornNames q.1 q.2 = true := by decide +kernel

theorem torn_checks (t : IndexType) (b : BvKind) : ∀ q ∈ tornTable, ∀ st ∈ program t b, tornCheck q.1 q.2 st = true := by
  have : (program t b).all (fun st => tornTable.all (fun q => tornCheck q.1 q.2 st)) = true := by cases t <;> cases b <;> decide +kernel
  exact fun q hq st hst => List.all_eq_true.1 (List.all_eq_true.1 this st hst) q hq

/-- **C34**, violation 5: what follows from files that a crash has left half written, for the files of `tornGroups`, every text, and whatever
    happened before. If the files of a group (at rate `s`) are half written and nothing has been made from them, then an index whose construction
    reads one of them can never be constructed at this rate: not after any history of constructions, crashes and new processes. -/
theorem c34_torn_violation (bytes : List Nat) (H : List FileRef) (hH : H ∈ tornGroups) (s : Nat) (D : Disk)
    (half : ∀ r ∈ H, D (r.file s) = some none) (unmade : ∀ r, MadeFrom H r → D (r.file s) = none) (P : Process)
    (hP : CacheHistory bytes (fun _ => True) (Process.fresh D) P) (t : IndexType) (b : BvKind) (ht : ∃ st ∈ program t b, readsOne H st = true) :
    constructIn bytes t b s P = none := by
  unfold tornGroups at hH
  obtain ⟨⟨H', A⟩, hq, rfl⟩ := List.mem_map.1 hH
  dsimp only at half unmade ht
  have hn := torn_names _ hq
  have inv : Torn H' A s P := by
    induction hP with
    | start => exact ⟨half, fun r hr => unmade r (torn_made _ hq r hr), fun _ _ h => by cases h⟩
    | construct t' b' s' _ hc ih => exact (run_torn hn s' _ _ (torn_checks t' b' _ hq) ih).2.1 _ hc
    | @crash P t' b' s' k _ _ ih =>
      have h1 := (run_torn (bytes := bytes) hn s' _ _ (torn_checks t' b' _ hq) ih).1
      have h2 : ∀ r ∈ H' ++ A, (P.disk.applyAll ((constructEvents bytes t' b' s' P).take k)) (r.file s) = P.disk (r.file s) :=
        fun r hr => applyAll_apart _ _ (fun e he => h1 e (List.mem_of_mem_take he) r hr)
      exact ⟨fun r hr => (h2 r (List.mem_append_left _ hr)).trans (ih.half r hr),
        fun r hr => (h2 r (List.mem_append_right _ hr)).trans (ih.absent r hr), fun _ _ h => by cases h⟩
    | restart _ ih => exact ⟨ih.half, ih.absent, fun _ _ h => by cases h⟩
  exact (run_torn hn s _ _ (torn_checks t b _ hq) inv).2.2 rfl ht

/-- the first stores of SrIndex at rate 2: up to the opening of the file of the kept runs -/
def exTorn : Disk := Disk.empty.applyAll ((constructEvents exBytes .srIndex .sd 2 (Process.fresh Disk.empty)).take 31)

/-- the files of these stores -/
def exTornFiles : List FileRef :=
  [(.text, none), (.sa, none), (.bwt, none), (.first, none), (.firstTextPos, none), (.last, none), (.lastTextPos, none), (.alphabet, none),
   (.bwtRle, none), (.firstSorted, none), (.firstToLast, none), (.firstTextPos, some .sdVector), (.firstTextPos, some .sdRank),
   (.firstTextPos, some .sdSelect), (.lastSorted, none), (.subLastIdx, none)]

-- a crash there meets the hypotheses, for SrIndex and its variants
example : [(.subLastIdx, none)] ∈ tornGroups ∧ (∀ r ∈ ([(.subLastIdx, none)] : List FileRef), exTorn (FileRef.file 2 r) = some none) ∧
    (∀ r : FileRef, MadeFrom [(.subLastIdx, none)] r → exTorn (r.file 2) = none) ∧
    ∀ t ∈ [IndexType.srIndex, .srIndexValidMark, .srIndexValidArea], ∃ st ∈ program t .sd, readsOne [(.subLastIdx, none)] st = true := by
  have files : ((constructEvents exBytes .srIndex .sd 2 (Process.fresh Disk.empty)).take 31).all (fun e =>
      exTornFiles.any (fun r => decide (e.file = r.file 2))) = true := by decide +kernel
  have made : ∀ t ∈ allTypes, ∀ b ∈ [BvKind.sd, .plain], (program t b).all (fun st => !readsOne [(.subLastIdx, none)] st ||
      st.outputs.flatten.all (fun r => decide (r ∉ exTornFiles))) = true := by decide +kernel
  refine ⟨by decide, ?_, ?_, ?_⟩
  · have : (exTorn (FileRef.file 2 (.subLastIdx, none))).map Option.isSome = some false := by decide +kernel
    intro r hr
    obtain rfl := List.mem_singleton.1 hr
    cases h : exTorn (FileRef.file 2 (.subLastIdx, none)) with
    | none => rw [h] at this; cases this
    | some c => cases c with
      | none => rfl
      | some x => rw [h] at this; cases this
  · rintro r ⟨t, b, st, h1, h2, h3⟩
    have h4 := List.all_eq_true.1 (made t (mem_allTypes t) b (by cases b <;> decide)) st h1
    rw [h2, Bool.not_true, Bool.false_or] at h4
    have h5 := of_decide_eq_true (List.all_eq_true.1 h4 r h3)
    unfold exTorn
    rw [← Option.not_isSome_iff_eq_none, applyAll_exists]
    rintro (h | ⟨e, he, hf⟩)
    · cases h
    · obtain ⟨r', h6, h7⟩ := List.any_eq_true.1 (List.all_eq_true.1 files e he)
      rw [decide_eq_true_iff, hf] at h7
      obtain ⟨rfl, -⟩ := file_inj h7
      exact h5 h6
  · decide +kernel

end Sri

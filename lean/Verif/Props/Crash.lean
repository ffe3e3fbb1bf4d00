import Verif.Proofs.CacheStuck
import Verif.Props.Text
/-! # C34: resuming a construction after a crash -/
namespace Sri
set_option autoImplicit false

/-- What happens to the cache of one data set, from a process `P₀` on: constructions of indexes that complete, one after the other in a
    process; crashes of the process during a construction, after any number of its stores, whose effects on the directory satisfy `ok`;
    and new processes. -/
inductive CacheHistory (bytes : List Nat) (ok : Disk → Prop) (P₀ : Process) : Process → Prop
  | start : CacheHistory bytes ok P₀ P₀
  | construct {P P' : Process} (t : IndexType) (b : BvKind) (s : Nat) : CacheHistory bytes ok P₀ P → constructIn bytes t b s P = some P' →
      CacheHistory bytes ok P₀ P'
  | crash {P : Process} (t : IndexType) (b : BvKind) (s k : Nat) : CacheHistory bytes ok P₀ P →
      ok (P.disk.applyAll ((constructEvents bytes t b s P).take k)) →
      CacheHistory bytes ok P₀ (Process.fresh (P.disk.applyAll ((constructEvents bytes t b s P).take k)))
  | restart {P : Process} : CacheHistory bytes ok P₀ P → CacheHistory bytes ok P₀ (Process.fresh P.disk)

/-- an empty directory -/
def Disk.empty : Disk := fun _ => none

theorem cleanDisk_empty : CleanDisk Disk.empty where
  whole := fun _ h => by cases h
  steps := fun _ _ _ _ _ _ _ h => by cases h
  psi := fun _ h => by cases h

theorem sound_empty (I : Nat → FileRef → Option Item) : Sound I (Process.fresh Disk.empty) where
  right := fun _ _ _ h => by cases h
  whole := fun _ h => by cases h
  map := fun _ _ h => by cases h

section
variable {T sa bytes : List Nat} {v : BaseVals T sa} {w : ∀ s, RateVals v s}

/-- the state of a process in a history whose crashes leave a clean directory -/
theorem history_sound (h : Input bytes T sa) {P : Process} (hP : CacheHistory bytes CleanDisk (Process.fresh Disk.empty) P) :
    Sound (ideal v w) P ∧ CleanDisk P.disk := by
  induction hP with
  | start => exact ⟨sound_empty _, cleanDisk_empty⟩
  | @construct P P' t b s _ hc ih =>
    obtain ⟨es, P'', h1, h2⟩ := construct_run h t b s ih.1 ih.2
    unfold constructIn at hc
    rw [h1] at hc
    cases hc
    exact ⟨h2.sound, ih.2.after (prefix_closed (List.append_nil _).symm) (psi_check t b) h2⟩
  | @crash P t b s k _ hok ih =>
    obtain ⟨es, P'', h1, h2⟩ := construct_run h t b s ih.1 ih.2
    refine ⟨⟨?_, hok.whole, fun _ _ h => by cases h⟩, hok⟩
    have e : constructEvents bytes t b s P = es := by unfold constructEvents; rw [h1]
    exact applyAll_right _ ih.1.right (fun e' he' => h2.right e' (by rw [e] at he'; exact List.mem_of_mem_take he'))
  | restart _ ih => exact ⟨⟨ih.1.right, ih.1.whole, fun _ _ h => by cases h⟩, ih.2⟩

end

theorem input_of_bytes {bytes : List Nat} (h0 : ∀ c ∈ bytes, c ≠ 0) : Input bytes (bytes ++ [0]) (suffixArray (bytes ++ [0])) :=
  ⟨(c35_construct_text bytes).1 h0, rfl⟩

theorem ideal_exists {bytes : List Nat} (h0 : ∀ c ∈ bytes, c ≠ 0) (hn : bytes.length + 1 < 2^64) :
    ∃ v : BaseVals (bytes ++ [0]) (suffixArray (bytes ++ [0])), Nonempty (∀ s, RateVals v s) := by
  have hT : IsText (bytes ++ [0]) := ⟨bytes, rfl, h0⟩
  have hl : (bytes ++ [0]).length < 2^64 := by simpa using hn
  obtain ⟨v⟩ := baseVals_exist hT (suffixArray_isSA _) hl
  exact ⟨v, ⟨fun s => Classical.choice (rateVals_exist hT (suffixArray_isSA _) hl v s)⟩⟩

/-- **C34** (partial): take any number of constructions of any indexes of one text on one cache, in any number of processes, with crashes
    that leave the directory clean: no file half written, no step half done and the samples of psi runs only together with their marks.
    Then the construction of any index at any rate completes, and what it leaves in the cache loads as the very index that an uninterrupted
    construction gives, with exact answers. What is missing are the other crash points; for those the property is false, see
    `c34_supports_violation` and `c34_psi_violation`. -/
theorem c34_resume_partial {α : Type} (K : Codec α) (bytes : List Nat) (h0 : ∀ c ∈ bytes, c ≠ 0) (hn : bytes.length + 1 < 2^64) (P : Process)
    (hP : CacheHistory bytes CleanDisk (Process.fresh Disk.empty) P) (t : IndexType) (b : BvKind) (s : Nat) :
    ∃ P' q, constructIn bytes t b s P = some P' ∧ loadIn K t b s P' = some q ∧ indexFromBytes t bytes s = some q ∧
      ∀ X, X ≠ [] → (∀ c ∈ X, c ∈ bytes) → ∃ i j l, q.count X = some (i, j) ∧ q.locate X = some l ∧ i ≤ j ∧
        j - i = (occurrences X bytes).length ∧ l.Perm (occurrences X bytes) := by
  obtain ⟨v, ⟨w⟩⟩ := ideal_exists h0 hn
  have hin := input_of_bytes h0
  obtain ⟨hs, hc⟩ := history_sound (v := v) (w := w) hin hP
  obtain ⟨es, P', h1, h2⟩ := construct_run hin t b s hs hc
  obtain ⟨p, hp, hC⟩ := ran_hasIndex h2
  obtain ⟨I, S, h3, -, h4, -⟩ := load_constructed K hp hC (S := []) (fun _ _ => Or.inl rfl)
  obtain ⟨q, h5, h6⟩ := c01_end_to_end t bytes h0 hn s
  refine ⟨P', q, by unfold constructIn; rw [h1], ?_, h5, h6⟩
  unfold loadIn
  unfold rateArg at h3
  rw [h3]
  simp only [Option.bind_eq_bind, Option.bind_some]
  rw [h4, ← h5]
  unfold indexFromBytes
  rw [hin.text]

/-- **C34** (partial): the crashes between two steps of a construction are among those of `c34_resume_partial`, except between the two steps
    that write the samples and the marks of psi runs: `p` are the steps that are done, `q` those that are not, and the stores of `p` come
    first among those of the construction. -/
theorem c34_between_steps_partial (bytes : List Nat) (h0 : ∀ c ∈ bytes, c ≠ 0) (hn : bytes.length + 1 < 2^64) (P : Process)
    (hP : CacheHistory bytes CleanDisk (Process.fresh Disk.empty) P) (t : IndexType) (b : BvKind) (s : Nat) (p q : List CacheStep)
    (hpq : program t b = p ++ q) (hpsi : PsiPaired (outputsOf p)) :
    (constructEvents bytes t b s P).take (runSteps bytes s p P).1.length = (runSteps bytes s p P).1 ∧
      CleanDisk (P.disk.applyAll (runSteps bytes s p P).1) := by
  obtain ⟨v, ⟨w⟩⟩ := ideal_exists h0 hn
  have hin := input_of_bytes h0
  obtain ⟨hs, hc⟩ := history_sound (v := v) (w := w) hin hP
  obtain ⟨es, P', h1, h2⟩ := prefix_run hin t b s hpq hpsi hs hc
  have h3 := runSteps_append bytes s p q P h1
  constructor
  · unfold constructEvents
    rw [hpq, h3, h1]
    simp
  · rw [h1]
    dsimp only
    rw [← h2.disk]
    exact hc.after (prefix_closed hpq) hpsi h2

/-! ## Crash points that are not clean -/

/-- once the bit vector of the marks is stored without its rank support, no history of the cache brings the index back -/
theorem stuck_forever {α : Type} (K : Codec α) (bytes : List Nat) (t : IndexType) (b : BvKind) (s : Nat) {P₀ P : Process}
    (h₀ : Stuck (slotName t .marks, some .sdVector) (slotName t .marks, some .sdRank) s P₀) (hP : CacheHistory bytes (fun _ => True) P₀ P) :
    loadIn K t b s P = none := by
  have hm := marks_file t
  have hne : ((slotName t .marks, some .sdVector) : FileRef) ≠ (.subPsiIdx, none) := by cases t <;> decide
  have inv : Stuck (slotName t .marks, some .sdVector) (slotName t .marks, some .sdRank) s P := by
    induction hP with
    | start => exact h₀
    | construct t' b' s' _ hc ih => exact (run_stuck (g := (slotName t .marks, some .sdVector)) (r := (slotName t .marks, some .sdRank)) rfl hne s' _ _ (guarded_all t' b' _ hm) ih).2 _ hc
    | @crash P t' b' s' k _ _ ih =>
      refine ⟨?_, ?_, fun _ _ h => by cases h⟩
      · change ((P.disk.applyAll _) _).isSome = true
        rw [applyAll_exists]; exact Or.inl ih.there
      · change (P.disk.applyAll _) _ = none
        rw [← Option.not_isSome_iff_eq_none, applyAll_exists]
        rintro (h | ⟨e, he, hf⟩)
        · rw [ih.absent] at h; cases h
        · exact (run_stuck (bytes := bytes) (g := (slotName t .marks, some .sdVector)) (r := (slotName t .marks, some .sdRank)) rfl hne s' _ _ (guarded_all t' b' _ hm) ih).1 e (List.mem_of_mem_take he) hf
    | restart _ ih => exact ⟨ih.there, ih.absent, fun _ _ h => by cases h⟩
  have ha : (⟨.marks, .rank, .sdVector, .sdRank, true⟩ : Access) ∈ accesses t b := by simp [accesses, loadAllItems]
  have hf := access_file (s := s) ha
  have hC : P.cache (keyOf t (buildPrefix t s) .marks) (some .sdRank) = none := by
    unfold Process.cache
    have e : (keyOf t (buildPrefix t s) .marks, some .sdRank) = FileRef.file s (slotName t .marks, some .sdRank) := by simpa [accessRef] using hf
    rw [e, inv.map.fileName (by cases t <;> decide), inv.absent]
    rfl
  have := load_without_rank (K := K) (b := b) hC
  unfold loadIn
  unfold rateArg at this
  rw [this]
  rfl

/-- the steps before the bit vector of the marks -/
def beforeMarks (t : IndexType) (b : BvKind) : List CacheStep :=
  (program t b).takeWhile (fun st => decide ((slotName t .marks, some .sdVector) ∉ st.outputs.flatten))

theorem program_marks (t : IndexType) (b : BvKind) :
    ∃ src len q, program t b = beforeMarks t b ++ [Steps.bitVector (slotName t .marks) .sd src len] ++ q := by
  cases t <;> cases b <;> exact ⟨_, _, _, rfl⟩

theorem beforeMarks_outputs (t : IndexType) (b : BvKind) : (slotName t .marks, some .sdVector) ∉ outputsOf (beforeMarks t b) ∧
    (slotName t .marks, some .sdRank) ∉ outputsOf (beforeMarks t b) := by
  cases t <;> cases b <;> decide +kernel

theorem beforeMarks_psi (t : IndexType) (b : BvKind) : PsiPaired (outputsOf (beforeMarks t b)) := by
  unfold PsiPaired
  cases t <;> cases b <;> decide +kernel

/-- **C34**, violation 1: for every text, index type, bit vector type and rate there is a point of the construction on an empty cache, with
    no file half written, such that after a crash at this point the index can never be loaded from the cache: not after construction is
    started again, and not after any further constructions of any indexes, crashes and new processes. (The bit vector of the marks is
    stored and the rank support that goes with it is not; the step that writes both is skipped if the first exists.) -/
theorem c34_supports_violation {α : Type} (K : Codec α) (bytes : List Nat) (h0 : ∀ c ∈ bytes, c ≠ 0) (hn : bytes.length + 1 < 2^64)
    (t : IndexType) (b : BvKind) (s : Nat) :
    ∃ k D, D = Disk.empty.applyAll ((constructEvents bytes t b s (Process.fresh Disk.empty)).take k) ∧ (∀ f, D f ≠ some none) ∧
      ∀ P, CacheHistory bytes (fun _ => True) (Process.fresh D) P → loadIn K t b s P = none := by
  obtain ⟨v, ⟨w⟩⟩ := ideal_exists h0 hn
  have hin := input_of_bytes h0
  obtain ⟨src, len, q, hprog⟩ := program_marks t b
  obtain ⟨o1, o2⟩ := beforeMarks_outputs t b
  obtain ⟨m, hm⟩ : ∃ m, m = slotName t .marks := ⟨_, rfl⟩
  have hmp : ((m, some .sdVector) : FileRef) ≠ (.subPsiIdx, none) := by rw [hm]; cases t <;> decide
  rw [← hm] at hprog o1 o2
  obtain ⟨es, P₁, h1, h2⟩ := prefix_run (v := v) (w := w) hin t b s (p := beforeMarks t b) (q := [Steps.bitVector m .sd src len] ++ q)
    (by rw [hprog, List.append_assoc]) (beforeMarks_psi t b) (sound_empty _) cleanDisk_empty
  have no : ∀ r : FileRef, r ∉ outputsOf (beforeMarks t b) → P₁.disk (r.file s) = none := by
    intro r hr
    cases hd : P₁.disk (r.file s) with
    | none => rfl
    | some c =>
      rcases h2.only (r.file s) (by rw [hd]; rfl) with h | ⟨r', hr', e⟩
      · cases h
      · obtain ⟨rfl, -⟩ := file_inj e
        exact absurd hr' hr
  have hpp : PsiPaired (outputsOf (beforeMarks t b ++ [Steps.bitVector m .sd src len])) := by
    have hb := beforeMarks_psi t b
    unfold PsiPaired at hb ⊢
    unfold outputsOf at hb ⊢
    rw [List.flatMap_append]
    intro hx
    rcases List.mem_append.1 hx with hx | hx
    · exact List.mem_append_left _ (hb hx)
    · simp [Steps.bitVector, BvKind.ty, BvKind.rankTy, BvKind.selectTy] at hx
  obtain ⟨es', P₂, h3, -⟩ := prefix_run (v := v) (w := w) hin t b s (p := beforeMarks t b ++ [Steps.bitVector m .sd src len]) (q := q) hprog hpp
    (sound_empty _) cleanDisk_empty
  have h4 := runSteps_append bytes s (beforeMarks t b) [Steps.bitVector m .sd src len] _ h1
  rw [h3, runSteps_cons] at h4
  have hg : ¬ ((Steps.bitVector m .sd src len).guards.any (fun r => P₁.has (r.file s)) = true) := by
    simp only [Steps.bitVector, List.any_cons, List.any_nil, Bool.or_false, BvKind.ty]
    rw [has_eq h2.sound.map hmp, no _ o1]
    simp
  rw [if_neg hg] at h4
  cases hr : (Steps.bitVector m .sd src len).run bytes s P₁ with
  | none => rw [hr] at h4; simp at h4
  | some es2 =>
    rw [hr] at h4
    dsimp only at h4
    obtain ⟨x, rest, he2⟩ : ∃ x rest, es2 = [.opened (FileRef.file s (m, some .sdVector)), .closed (FileRef.file s (m, some .sdVector)) x] ++ rest := by
      unfold CacheStep.run at hr
      simp only [Option.bind_eq_bind, Option.bind_eq_some_iff, Option.pure_def, Option.some.injEq] at hr
      obtain ⟨xs, -, ys, hc, rfl⟩ := hr
      simp only [Steps.bitVector] at hc ⊢
      split at hc
      · obtain ⟨bv, -, rfl⟩ := Option.map_eq_some_iff.1 hc
        exact ⟨_, _, rfl⟩
      · cases hc
    refine ⟨es.length + 2, _, rfl, ?_⟩
    have hev : (constructEvents bytes t b s (Process.fresh Disk.empty)).take (es.length + 2) =
        es ++ [.opened (FileRef.file s (m, some .sdVector)), .closed (FileRef.file s (m, some .sdVector)) x] := by
      have h5 := runSteps_append bytes s _ q _ h3
      rw [Prod.mk.injEq] at h4
      unfold constructEvents
      rw [hprog, h5, h4.1, he2]
      dsimp only
      rw [List.append_assoc, List.append_assoc, List.take_length_add_append]
      rfl
    have hD : Disk.empty.applyAll (es ++ [.opened (FileRef.file s (m, some .sdVector)), .closed (FileRef.file s (m, some .sdVector)) x]) =
        fun f => if f = FileRef.file s (m, some .sdVector) then some (some x) else P₁.disk f := by
      rw [applyAll_append]
      have := h2.disk
      change P₁.disk = Disk.empty.applyAll es at this
      rw [← this]
      funext f
      simp only [Disk.applyAll, List.foldl_cons, List.foldl_nil, Disk.apply]
      split <;> rfl
    rw [hev, hD]
    constructor
    · intro f hf
      dsimp only at hf
      split at hf
      · cases hf
      · exact h2.sound.whole f hf
    · intro P hP
      refine stuck_forever K bytes t b s ?_ hP
      rw [← hm]
      refine ⟨?_, ?_, fun _ _ h => by cases h⟩
      · simp [Process.fresh]
      · simp only [Process.fresh]
        rw [if_neg (fun e => by have := (file_inj e).1; simp at this)]
        exact no _ o2

/-! ## Examples -/

/-- the bytes of the example text -/
def exBytes : List Nat := [1,2,3,1,2,3,1,2,1,2,3]

/-- what Locate answers if a construction on an empty cache crashes after `k` stores and is then started again by a new process -/
def resumedLocate (t : IndexType) (b : BvKind) (s k : Nat) (X : List Nat) : Option (List Nat) := do
  let P ← constructIn exBytes t b s (Process.fresh (Disk.empty.applyAll ((constructEvents exBytes t b s (Process.fresh Disk.empty)).take k)))
  let q ← loadIn tokenCodec t b s P
  q.locate X

/-- **C34**, violation 2: SrCSAWithPsiRun, SRCSAValidMark and SRCSAValidArea at rate 2. Let the crash come between the steps that write the
    samples and the marks of psi runs: no file is half written and no step half done. Started again, construction of the first completes
    and the index loads, but a Locate of it fails, while that of an uninterrupted construction answers; construction of the others fails.
    (The marks are computed from a file that construction finds only through a name in the memory of the process that crashed.) -/
theorem c34_psi_violation : ∀ t ∈ [IndexType.srCSAWithPsiRun, .psiValidMark, .psiValidArea], ∃ k D,
    (∃ p q, program t .sd = p ++ q ∧ k = (runSteps exBytes 2 p (Process.fresh Disk.empty)).1.length) ∧
    D = Disk.empty.applyAll ((constructEvents exBytes t .sd 2 (Process.fresh Disk.empty)).take k) ∧
    (t = .srCSAWithPsiRun → ∃ P q, constructIn exBytes t .sd 2 (Process.fresh D) = some P ∧ loadIn tokenCodec t .sd 2 P = some q ∧ q.locate [2] = none) ∧
    (t ≠ .srCSAWithPsiRun → constructIn exBytes t .sd 2 (Process.fresh D) = none) ∧
    (indexFromBytes t exBytes 2).bind (·.locate [2]) = some [7, 9, 4, 1] := by
  intro t ht
  have e : ∃ q, program t .sd = (psiPre ++ [Steps.samplesPsi]) ++ q := by
    simp only [List.mem_cons, List.not_mem_nil, or_false] at ht
    rcases ht with rfl | rfl | rfl <;> exact ⟨_, rfl⟩
  obtain ⟨q, e⟩ := e
  have k : 40 = (runSteps exBytes 2 (psiPre ++ [Steps.samplesPsi]) (Process.fresh Disk.empty)).1.length := by decide +kernel
  refine ⟨40, _, ⟨_, q, e, k⟩, rfl, ?_, ?_, ?_⟩
  · rintro rfl
    have h : ((constructIn exBytes .srCSAWithPsiRun .sd 2 (Process.fresh (Disk.empty.applyAll
        ((constructEvents exBytes .srCSAWithPsiRun .sd 2 (Process.fresh Disk.empty)).take 40)))).bind
        (fun P => (loadIn tokenCodec .srCSAWithPsiRun .sd 2 P).map (fun q => q.locate [2]))) = some none := by decide +kernel
    obtain ⟨P, hP, hl⟩ := Option.bind_eq_some_iff.1 h
    obtain ⟨q, hq, hn⟩ := Option.map_eq_some_iff.1 hl
    exact ⟨P, q, hP, hq, hn⟩
  · intro hne
    have h : ∀ t ∈ [IndexType.psiValidMark, .psiValidArea], (constructIn exBytes t .sd 2 (Process.fresh (Disk.empty.applyAll
        ((constructEvents exBytes t .sd 2 (Process.fresh Disk.empty)).take 40)))).isNone = true := by decide +kernel
    rw [← Option.isNone_iff_eq_none]
    refine h t ?_
    simp only [List.mem_cons, List.not_mem_nil, or_false] at ht ⊢
    rcases ht with rfl | ht
    · exact absurd rfl hne
    · exact ht
  · have h : ∀ t ∈ [IndexType.srCSAWithPsiRun, .psiValidMark, .psiValidArea],
      (indexFromBytes t exBytes 2).bind (·.locate [2]) = some [7, 9, 4, 1] := by decide +kernel
    exact h t ht

-- a crash between two steps and a crash between two stores of one step; the answers are those of an uninterrupted construction in the
-- first case only
example : resumedLocate .srIndexValidArea .sd 2 38 [2] = some [1, 4, 9, 7] ∧ resumedLocate .srIndexValidArea .sd 2 36 [2] = none ∧
    (indexFromBytes .srIndexValidArea exBytes 2).bind (·.locate [2]) = some [1, 4, 9, 7] := by decide +kernel

-- a history with a crash, as in the theorems above
example : ∃ P, CacheHistory exBytes CleanDisk (Process.fresh Disk.empty) P ∧ P.disk (FileRef.file 2 (.subLastIdx, none)) ≠ none ∧
    P.disk (FileRef.file 2 (.subFirstToLast, none)) = none := by
  have e : program .srIndexValidArea .sd = (program .srIndexValidArea .sd).take 11 ++ (program .srIndexValidArea .sd).drop 11 :=
    (List.take_append_drop _ _).symm
  obtain ⟨h1, h2⟩ := c34_between_steps_partial exBytes (by decide) (by decide) _ .start .srIndexValidArea .sd 2 _ _ e (by unfold PsiPaired; decide +kernel)
  rw [← h1] at h2
  exact ⟨_, .crash .srIndexValidArea .sd 2 _ .start h2, by decide +kernel, by decide +kernel⟩

end Sri

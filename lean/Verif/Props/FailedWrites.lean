import Verif.Proofs.FailedWrites
import Verif.Proofs.LostRun
import Verif.Proofs.LostUnread
import Verif.Props.CrashPoints
namespace Sri
set_option autoImplicit false

/-- What happens to the cache of one data set, from a process `P₀` on, while files cannot be written: constructions of indexes that complete, each
    with the files `F` that cannot be opened for writing while it runs, of which `ok` says which they may be; constructions that stop
    because a file is missing, or because a buffer with which a step begins cannot be opened for writing, of which `okHalt` says the same;
    and new processes. -/
inductive FaultyHistory (bytes : List Nat) (ok okHalt : (File → Bool) → Prop) (P₀ : Process) : Process → Prop
  | start : FaultyHistory bytes ok okHalt P₀ P₀
  | construct {P P' : Process} (F : File → Bool) (t : IndexType) (b : BvKind) (s : Nat) : FaultyHistory bytes ok okHalt P₀ P → ok F →
      constructInF F bytes t b s P = some P' → FaultyHistory bytes ok okHalt P₀ P'
  | halt {P P' : Process} (F : File → Bool) (t : IndexType) (b : BvKind) (s : Nat) : FaultyHistory bytes ok okHalt P₀ P → okHalt F →
      haltInF F bytes t b s P = some P' → FaultyHistory bytes ok okHalt P₀ P'
  | restart {P : Process} : FaultyHistory bytes ok okHalt P₀ P → FaultyHistory bytes ok okHalt P₀ (Process.fresh P.disk)

theorem sureDisk_empty : SureDisk Disk.empty where
  whole := fun _ h => by cases h
  steps := fun _ _ _ _ _ _ _ h => by cases h
  needs := fun _ _ _ h => by cases h

section
variable {T sa bytes : List Nat} {v : BaseVals T sa} {w : ∀ s, RateVals v s}

theorem faulty_sound (h : Input bytes T sa) {P : Process} (hP : FaultyHistory bytes Checked AllChecked (Process.fresh Disk.empty) P) :
    Sound (ideal v w) P ∧ SureDisk P.disk := by
  induction hP with
  | start => exact ⟨sound_empty _, sureDisk_empty⟩
  | construct F t b s _ hF hc ih =>
    have h2 := construct_sure h hF t b s ih.1 ih.2 hc
    exact ⟨h2.sound, ih.2.after (List.append_nil _).symm (needs_closed t b) h2⟩
  | halt F t b s _ hF hc ih => exact halt_sure h hF t b s ih.1 ih.2 hc
  | restart _ ih => exact ⟨⟨ih.1.right, ih.1.whole, fun _ _ h => by cases h⟩, ih.2⟩

/-- what is in a cache whose files are right is what a complete construction leaves -/
theorem sound_load {α : Type} (K : Codec α) (h : Input bytes T sa) {P : Process} (hP : Sound (ideal v w) P) (t : IndexType) (b : BvKind) (s : Nat)
    {q : Queries} (hq : loadIn K t b s P = some q) : buildIndex t T sa s = some q := by
  obtain ⟨es, P', h1, h2⟩ := construct_run h t b s (sound_empty (ideal v w)) cleanDisk_empty
  obtain ⟨p, hp, hC⟩ := ran_hasIndex h2
  obtain ⟨C', hC'⟩ : ∃ C' : Cache, C' = fun k h => (P.cache k h).or (P'.cache k h) := ⟨_, rfl⟩
  have hle : P.cache.Le C' := by
    intro k hh x hx
    rw [hC']
    dsimp only
    rw [hx]; rfl
  have hfull : ∀ f ∈ indexFiles t b s p, C' f.1.1 f.1.2 = some f.2 := by
    intro f hf
    rw [hC']
    dsimp only
    cases hx : P.cache f.1.1 f.1.2 with
    | none => exact hC f hf
    | some x =>
      have := hC f hf
      obtain ⟨a, ha, rfl⟩ := List.mem_map.1 hf
      dsimp only at hx this
      unfold Process.cache at hx this
      rw [access_file ha, hP.map.fileName (access_named t b a ha)] at hx
      rw [access_file ha, h2.sound.map.fileName (access_named t b a ha)] at this
      have e1 : P.disk (FileRef.file s (accessRef t a)) = some (some x) := by
        cases hd : P.disk (FileRef.file s (accessRef t a)) with
        | none => rw [hd] at hx; cases hx
        | some c => rw [hd] at hx; exact congrArg some hx
      have e2 : P'.disk (FileRef.file s (accessRef t a)) = some (some (itemOf b p a.target).unbound) := by
        cases hd : P'.disk (FileRef.file s (accessRef t a)) with
        | none => rw [hd] at this; cases this
        | some c => rw [hd] at this; exact congrArg some this
      have := hP.right _ _ _ e1
      rw [h2.sound.right _ _ _ e2] at this
      exact this.symm
  obtain ⟨I, S, h3, -, h4, -⟩ := load_constructed K hp hfull (S := []) (fun _ _ => Or.inl rfl)
  unfold loadIn at hq
  rw [Option.bind_eq_bind] at hq
  obtain ⟨⟨I1, S1⟩, h5, h6⟩ := Option.bind_eq_some_iff.1 hq
  unfold Object.loadCache Object.loadInner at h3 h5
  simp only [Option.bind_eq_bind, Option.bind_eq_some_iff, Option.pure_def, Option.some.injEq, Prod.mk.injEq, Prod.exists] at h3 h5
  obtain ⟨I2, st2, ⟨st3, h7, h8, h9⟩, h10, h11⟩ := h5
  obtain ⟨J2, st4, ⟨st5, k7, k8, k9⟩, k10, k11⟩ := h3
  obtain ⟨e, h12⟩ := runAll_mono hle _ h7
  unfold rateArg at k7
  rw [h12] at k7
  cases k7
  rw [← h4, ← k11, ← k9, ← k10, ← k8, ← h6, ← h11, ← h9, ← h10, ← h8]
  rfl

end

/-- **C74** (partial): a cache is built from an empty directory by any number of processes and any number of constructions of indexes, of any
    types and rates, while in each of them some files cannot be opened for writing, as long as these are not among the eight of
    `looseFiles` if the construction completes, and not among the twelve of `uncheckedFiles` if it stops because a file is missing or because it
    cannot open a buffer for writing with which a step begins. Then an
    index that loads from the cache is the one that an undisturbed construction leads to: it is the index of the bytes, and its answers
    are exact. (None of the eight can be left out: `c74_loose_violation`; and they are not enough for constructions that stop:
    `c74_halt_violation`.) -/
theorem c74_checked_partial {α : Type} (K : Codec α) (bytes : List Nat) (h0 : ∀ c ∈ bytes, c ≠ 0) (hn : bytes.length + 1 < 2^64) (P : Process)
    (hP : FaultyHistory bytes Checked AllChecked (Process.fresh Disk.empty) P) (t : IndexType) (b : BvKind) (s : Nat) (q : Queries)
    (hq : loadIn K t b s P = some q) : indexFromBytes t bytes s = some q ∧
      ∀ X, X ≠ [] → (∀ c ∈ X, c ∈ bytes) → ∃ i j l, q.count X = some (i, j) ∧ q.locate X = some l ∧ i ≤ j ∧
        j - i = (occurrences X bytes).length ∧ l.Perm (occurrences X bytes) := by
  obtain ⟨v, ⟨w⟩⟩ := ideal_exists h0 hn
  have hin := input_of_bytes h0
  obtain ⟨hs, -⟩ := faulty_sound (v := v) (w := w) hin hP
  have h1 := sound_load K hin hs t b s hq
  obtain ⟨q', h2, h3⟩ := c01_end_to_end t bytes h0 hn s
  have h4 : indexFromBytes t bytes s = some q := by
    unfold indexFromBytes
    rw [hin.text]
    exact h1
  rw [h2] at h4
  cases h4
  exact ⟨h2, h3⟩

/-- **C74** (partial): what is written through a buffer is not lost without notice. The suffix array, the transform, the heads and tails of runs
    with their text positions, the heads and tails of psi runs, the files sorted by alphabet and the validity of marks and areas
    are written in this way. If one of those of the class cannot be opened, construction in an empty directory fails. -/
theorem c74_buffered_partial (bytes : List Nat) (t : IndexType) (b : BvKind) (s : Nat) (n : FileName) (h : Option ItemType)
    (hn : (n, h) ∈ [(FileName.sa, none), (.bwt, none), (.first, none), (.firstTextPos, none), (.last, none), (.lastTextPos, none),
      (.psiFirst, some .ints), (.psiLast, some .ints), (.alphaIdx, none), (.cumRuns, none), (.alphaSubFirst, none), (.alphaSubIdx, none),
      (.alphaSubLinks, none), (.validFirstMark, none), (.validFirstArea, none), (.validLastMark, none), (.validLastArea, none)])
    (ht : ∃ st ∈ program t b, (n, h) ∈ st.outputs.flatten) (F : File → Bool) (hF : F (FileRef.file s (n, h)) = true) :
    constructInF F bytes t b s (Process.fresh Disk.empty) = none := by
  obtain ⟨st, h1, h2⟩ := ht
  have hb : FileRef.buffered (n, h) = true := by
    revert hn
    generalize (n, h) = r
    intro hn
    revert r
    decide
  exact buffered_run (r := (n, h)) hb hF (units (program t b)) [] _
    (by rw [units_flatten]; exact buffered_program t b _ (List.mem_flatMap.2 ⟨st, h1, h2⟩) hb) (fun f hf => by cases hf) (fun _ _ h => by cases h)

/-- six of them are written by every class -/
example : ∀ t, ∀ r ∈ [((.sa, none) : FileRef), (.bwt, none), (.first, none), (.firstTextPos, none), (.last, none), (.lastTextPos, none)],
    ∃ st ∈ program t .sd, r ∈ st.outputs.flatten := by
  intro t r hr
  refine ⟨if r = (.sa, none) then Steps.sa else if r = (.bwt, none) then Steps.bwt else Steps.bwtRuns, ?_, ?_⟩
  · obtain ⟨rest, e⟩ := program_base4 t .sd
    rw [e]
    split
    · simp
    · split <;> simp
  · revert hr r
    decide

/-- a pattern that occurs has only characters of the text -/
theorem occurs_chars {X bytes : List Nat} (h : occurrences X bytes ≠ []) : ∀ c ∈ X, c ∈ bytes := by
  obtain ⟨p, hp⟩ := List.exists_mem_of_ne_nil _ h
  have ho : OccursAt X bytes p := of_decide_eq_true (List.mem_filter.1 hp).2
  intro c hc
  rw [← ho.2] at hc
  exact List.mem_of_mem_drop (List.mem_of_mem_take hc)

/-- **C74**, violation: for every text, every rate and every bit vector type, if one file, the indices of the run tails (SrIndex), of the run
    heads (SrCSA, SrCSASlim) or of the heads of psi runs (SrCSAWithPsiRun) in the order of their text positions, cannot be opened for writing
    while the index is constructed in an empty directory, then construction completes, and the index loads. It counts exactly, but Locate of
    no pattern that occurs returns: there are no samples. When the file can be written again, constructing the index again completes too
    and loads the same broken index. -/
theorem c74_order_violation {α : Type} (K : Codec α) (bytes : List Nat) (h0 : ∀ c ∈ bytes, c ≠ 0) (hn : bytes.length + 1 < 2^64) (t : IndexType)
    (n : FileName) (ht : (t, n) ∈ [(IndexType.srIndex, FileName.lastSorted), (.srCSA, .firstSorted), (.srCSASlim, .firstSorted),
      (.srCSAWithPsiRun, .psiFirstAsc)]) (b : BvKind) (s : Nat) :
    ∃ P q, constructInF (fun f => decide (f = FileRef.file s (n, none))) bytes t b s (Process.fresh Disk.empty) = some P ∧
      loadIn K t b s P = some q ∧
      (∀ X, X ≠ [] → (∀ c ∈ X, c ∈ bytes) → ∃ i j, q.count X = some (i, j) ∧ i ≤ j ∧ j - i = (occurrences X bytes).length) ∧
      (∀ X, X ≠ [] → occurrences X bytes ≠ [] → q.locate X = none) ∧
      ∃ P', constructIn bytes t b s (Process.fresh P.disk) = some P' ∧ loadIn K t b s P' = some q := by
  obtain ⟨v, ⟨w⟩⟩ := ideal_exists h0 hn
  have hin := input_of_bytes h0
  obtain ⟨hL, rfl⟩ : Lossy t ∧ n = orderFile t := by
    simp only [List.mem_cons, Prod.mk.injEq, List.not_mem_nil, or_false] at ht
    unfold Lossy
    rcases ht with ⟨rfl, rfl⟩ | ⟨rfl, rfl⟩ | ⟨rfl, rfl⟩ | ⟨rfl, rfl⟩ <;> simp [orderFile]
  obtain ⟨P, h1, h2⟩ := lost_run (v := v) (w := w) hin hL b s
  have h3 := lost_load (v := v) (w := w) K hL b s h2.map h2.files
  obtain ⟨P', h4, h5, h6⟩ := lost_again hin hL b s h2
  have h7 := lost_load (v := v) (w := w) K hL b s h5 (fun r hr => by
    obtain ⟨x, hx, hb⟩ := h2.files r hr
    refine ⟨x, ?_, hb⟩
    rw [h6 _ (fun e => by rw [e, h2.missing] at hx; cases hx)]
    exact hx)
  obtain ⟨q0, h8, h9⟩ := c01_end_to_end t bytes h0 hn s
  have h10 : (partsVals v w t s).assemble t s = some q0 := by
    rw [(partsOf_ok (partsOf_vals (v := v) (w := w) t s)).2]
    unfold indexFromBytes at h8
    rw [hin.text] at h8
    exact h8
  obtain ⟨q, h11, h12, h13⟩ := blank_answers hL h10
  rw [h11] at h3 h7
  have hc : ∀ X, X ≠ [] → (∀ c ∈ X, c ∈ bytes) → ∃ i j, q.count X = some (i, j) ∧ i ≤ j ∧ j - i = (occurrences X bytes).length := by
    intro X hX hXc
    obtain ⟨i, j, l, k1, -, k2, k3, -⟩ := h9 X hX hXc
    exact ⟨i, j, by rw [h12]; exact k1, k2, k3⟩
  refine ⟨P, q, h1, h3, hc, ?_, P', h4, h7⟩
  intro X hX ho
  obtain ⟨i, j, k1, k2, k3⟩ := hc X hX (occurs_chars ho)
  cases hl : q.locate X with
  | none => rfl
  | some l =>
    have := h13 X l i j hl k1
    have : (occurrences X bytes).length ≠ 0 := fun e => ho (List.length_eq_zero_iff.1 e)
    omega

/-- **C74** (partial): the files can be written again. After any history of constructions of indexes of any types and rates, in each of
    which files that are not among the eight of `looseFiles`, or the twelve of `uncheckedFiles` if it stops because a file is missing
    or a step cannot open its first buffer, cannot be opened for writing, let the directory be such that of every step of the construction of the index `t` that finds its work done, what `t` needs is there (`MendableFor`). Then the construction of
    `t` completes, repairs the cache, and the index that it leaves is that of the bytes, with exact answers. (The condition cannot be left
    out: `c74_repair_violation`.) -/
theorem c74_repair_partial {α : Type} (K : Codec α) (bytes : List Nat) (h0 : ∀ c ∈ bytes, c ≠ 0) (hn : bytes.length + 1 < 2^64) (P : Process)
    (hP : FaultyHistory bytes Checked AllChecked (Process.fresh Disk.empty) P) (t : IndexType) (b : BvKind) (s : Nat) (hm : MendableFor t b s P.disk) :
    ∃ P' q, constructIn bytes t b s P = some P' ∧ loadIn K t b s P' = some q ∧ indexFromBytes t bytes s = some q ∧
      ∀ X, X ≠ [] → (∀ c ∈ X, c ∈ bytes) → ∃ i j l, q.count X = some (i, j) ∧ q.locate X = some l ∧ i ≤ j ∧
        j - i = (occurrences X bytes).length ∧ l.Perm (occurrences X bytes) := by
  obtain ⟨v, ⟨w⟩⟩ := ideal_exists h0 hn
  have hin := input_of_bytes h0
  obtain ⟨hs, -⟩ := faulty_sound (v := v) (w := w) hin hP
  obtain ⟨es, P', h1, h2⟩ := mendable_run (v := v) (w := w) hin t b s (P := P) hs.right hs.map hm
  obtain ⟨q, h3⟩ := hasIndex_load K h0 hn (mended_hasIndex (fun _ hr => decide_eq_true hr) h2)
  exact ⟨P', q, by unfold constructIn; rw [h1], h3⟩

/-- **C74**, violation of its last clause: for every text, class, bit vector type and rate, if one file, the rank support of the marks, cannot
    be opened for writing while the index is constructed in an empty directory, then every step of construction completes, but the index does not
    load, neither at the end of `construct` nor later; and when the file can be written again nothing brings it back: not constructing the index again, and no history of
    constructions of indexes, crashes and new processes in which every file can be written. -/
theorem c74_repair_violation {α : Type} (K : Codec α) (bytes : List Nat) (h0 : ∀ c ∈ bytes, c ≠ 0) (hn : bytes.length + 1 < 2^64)
    (t : IndexType) (b : BvKind) (s : Nat) :
    ∃ P, constructInF (fun f => decide (f = FileRef.file s (slotName t .marks, some .sdRank))) bytes t b s (Process.fresh Disk.empty) = some P ∧
      ∀ P', CacheHistory bytes (fun _ => True) P P' → loadIn K t b s P' = none := by
  obtain ⟨v, ⟨w⟩⟩ := ideal_exists h0 hn
  have hin := input_of_bytes h0
  obtain ⟨es, P', h1, h2⟩ := construct_run hin t b s (sound_empty (ideal v w)) cleanDisk_empty
  obtain ⟨Q, h3, h4, h5⟩ := unread_run (r := (slotName t .marks, some .sdRank)) (by cases t <;> rfl) (by cases t <;> decide) (program t b)
    (Process.fresh Disk.empty) (Process.fresh Disk.empty) P' es (rank_unread t b) (fun _ _ h => by cases h) ⟨fun _ _ => rfl, rfl, rfl⟩ h1
  have hne : decide (FileRef.file s (.subPsiLast, some .ints) = FileRef.file s (slotName t .marks, some .sdRank)) = false :=
    decide_eq_false (fun e => by cases (congrArg Prod.snd (file_inj e).1 : some ItemType.ints = some .sdRank))
  refine ⟨Q, by rw [constructInF_steps hne]; exact h3, fun P hP => stuck_forever K bytes t b s ⟨?_, h4.lost, h5⟩ hP⟩
  rw [h4.disk _ (fun e => by cases (file_inj e).1)]
  refine h2.all _ ?_
  obtain ⟨src, len, q, e⟩ := program_marks t b
  rw [e]
  simp [outputsOf, Steps.bitVector, BvKind.ty]

/-! ## Examples -/

/-- the samples of SrIndex at rate 2 cannot be written -/
def noSamples : File → Bool := fun f => decide (f = FileRef.file 2 (.subLast, none))

theorem noSamples_checked : Checked noSamples := by
  intro r hr s
  refine decide_eq_false (fun e => ?_)
  rw [(file_inj e).1] at hr
  exact absurd hr (by decide)

/-- SrIndex is constructed while its samples cannot be written: construction completes, load throws. RIndex, which a second process then
    constructs over the same files, loads, and answers. -/
example : ∃ P P', FaultyHistory exBytes Checked AllChecked (Process.fresh Disk.empty) P ∧ loadIn tokenCodec .srIndex .sd 2 P = none ∧
    FaultyHistory exBytes Checked AllChecked (Process.fresh Disk.empty) P' ∧ ∃ q, loadIn tokenCodec .rIndex .sd 2 P' = some q ∧
    q.locate [2] = some [1, 4, 9, 7] := by
  have h : ((constructInF noSamples exBytes .srIndex .sd 2 (Process.fresh Disk.empty)).bind (fun P =>
      (constructInF noSamples exBytes .rIndex .sd 2 (Process.fresh P.disk)).bind (fun P' =>
        (loadIn tokenCodec .rIndex .sd 2 P').map (fun q => ((loadIn tokenCodec .srIndex .sd 2 P).isNone, q.locate [2]))))) =
      some (true, some [1, 4, 9, 7]) := by decide +kernel
  obtain ⟨P, h1, h⟩ := Option.bind_eq_some_iff.1 h
  obtain ⟨P', h2, h⟩ := Option.bind_eq_some_iff.1 h
  obtain ⟨q, h3, h⟩ := Option.map_eq_some_iff.1 h
  rw [Prod.mk.injEq, Option.isNone_iff_eq_none] at h
  have k1 : FaultyHistory exBytes Checked AllChecked (Process.fresh Disk.empty) P := .construct _ _ _ _ .start noSamples_checked h1
  exact ⟨P, P', k1, h.1, .construct _ _ _ _ (.restart k1) noSamples_checked h2, q, h3, h.2⟩

/-- the marks of SrIndex at rate 2 cannot be written -/
def noMarks : File → Bool := fun f => decide (f = FileRef.file 2 (.subLastIdx, some .sdVector))

theorem noMarks_checked : Checked noMarks := by
  intro r hr s
  refine decide_eq_false (fun e => ?_)
  rw [(file_inj e).1] at hr
  exact absurd hr (by decide)

/-- SrIndex is constructed while the bit vector of its marks cannot be written: construction completes, load throws. Its rank support was written.
    The directory is one that construction repairs. -/
example : ∃ P, FaultyHistory exBytes Checked AllChecked (Process.fresh Disk.empty) P ∧ loadIn tokenCodec .srIndex .sd 2 P = none ∧
    MendableFor .srIndex .sd 2 P.disk ∧ (P.disk (FileRef.file 2 (.subLastIdx, some .sdRank))).isSome = true := by
  have h : (constructInF noMarks exBytes .srIndex .sd 2 (Process.fresh Disk.empty)).map (fun P => ((loadIn tokenCodec .srIndex .sd 2 P).isNone,
      mendableCheck .srIndex .sd 2 P.disk, (P.disk (FileRef.file 2 (.subLastIdx, some .sdRank))).isSome)) = some (true, true, true) := by decide +kernel
  obtain ⟨P, h1, h⟩ := Option.map_eq_some_iff.1 h
  rw [Prod.mk.injEq, Prod.mk.injEq, Option.isNone_iff_eq_none] at h
  exact ⟨P, .construct _ _ _ _ .start noMarks_checked h1, h.1, mendableCheck_ok h.2.1, h.2.2⟩

/-- the violation on the example text: the pattern `2` occurs at four places, and Locate of it does not return -/
example (t : IndexType) (n : FileName) (ht : (t, n) ∈ [(IndexType.srIndex, FileName.lastSorted), (.srCSA, .firstSorted), (.srCSASlim, .firstSorted),
    (.srCSAWithPsiRun, .psiFirstAsc)]) (b : BvKind) : ∃ P q,
    constructInF (fun f => decide (f = FileRef.file 2 (n, none))) exBytes t b 2 (Process.fresh Disk.empty) = some P ∧
      loadIn tokenCodec t b 2 P = some q ∧ (∃ i, q.count [2] = some (i, i + 4)) ∧ q.locate [2] = none := by
  obtain ⟨P, q, h1, h2, h3, h4, -⟩ := c74_order_violation tokenCodec exBytes (by decide) (by decide) t n ht b 2
  obtain ⟨i, j, h5, h6, h7⟩ := h3 [2] (by decide) (by decide)
  have : (occurrences [2] exBytes).length = 4 := by decide
  refine ⟨P, q, h1, h2, ⟨i, ?_⟩, h4 [2] (by decide) (by decide)⟩
  rw [h5, show i + 4 = j by omega]

/-- two constructions by two processes in an empty directory, the first while the files in `F` cannot be written: Count and Locate of the
    pattern `2` by the index that is then loaded -/
def afterLoss (F : File → Bool) (t t' : IndexType) : Option (Option (Nat × Nat) × Option (List Nat)) :=
  (constructInF F exBytes t .sd 2 (Process.fresh Disk.empty)).bind (fun P =>
    (constructInF (fun _ => false) exBytes t' .sd 2 (Process.fresh P.disk)).bind (fun P' =>
      (loadIn tokenCodec t' .sd 2 P').map (fun q => (q.count [2], q.locate [2]))))

theorem loss_history {r : FileRef} {F : File → Bool} {t t' : IndexType} (hF : ∀ f, F f = true → f = r.file 2 ∨ f = FileRef.file 2 (.psi, none))
    (h : afterLoss F t t' = some (some (5, 9), none)) : ∃ P q,
    FaultyHistory exBytes (fun F => ∀ r' ∈ looseFiles, r' ≠ r → ∀ s, F (r'.file s) = false) (fun _ => False) (Process.fresh Disk.empty) P ∧
      loadIn tokenCodec t' .sd 2 P = some q ∧ q.count [2] = some (5, 9) ∧ q.locate [2] = none := by
  obtain ⟨P, h1, h⟩ := Option.bind_eq_some_iff.1 h
  obtain ⟨P', h2, h⟩ := Option.bind_eq_some_iff.1 h
  obtain ⟨q, h3, h⟩ := Option.map_eq_some_iff.1 h
  rw [Prod.mk.injEq] at h
  refine ⟨P', q, .construct _ _ _ _ (.restart (.construct _ _ _ _ .start ?_ h1)) (fun _ _ _ _ => rfl) h2, h3, h.1, h.2⟩
  intro r' hr' hne s
  cases hx : F (FileRef.file s r') with
  | false => rfl
  | true =>
    rcases hF _ hx with e | e
    · exact absurd (file_inj e).1 hne
    · rw [(file_inj e).1] at hr'
      exact absurd hr' (by decide)

/-- **C74**, violation: each of the eight loose files matters. If only the others are sure to be written, there is a cache from which an index
    loads that counts the four occurrences of the pattern `2` and whose Locate of it does not return. In all cases the last construction
    could write every file. -/
theorem c74_loose_violation (r : FileRef) (hr : r ∈ looseFiles) : ∃ t P q,
    FaultyHistory exBytes (fun F => ∀ r' ∈ looseFiles, r' ≠ r → ∀ s, F (r'.file s) = false) (fun _ => False) (Process.fresh Disk.empty) P ∧
      loadIn tokenCodec t .sd 2 P = some q ∧ q.count [2] = some (5, 9) ∧ q.locate [2] = none ∧ (occurrences [2] exBytes).length = 4 := by
  have key : ∀ (F : File → Bool) (t t' : IndexType), (∀ f, F f = true → f = r.file 2 ∨ f = FileRef.file 2 (.psi, none)) →
      afterLoss F t t' = some (some (5, 9), none) → ∃ t P q,
      FaultyHistory exBytes (fun F => ∀ r' ∈ looseFiles, r' ≠ r → ∀ s, F (r'.file s) = false) (fun _ => False) (Process.fresh Disk.empty) P ∧
      loadIn tokenCodec t .sd 2 P = some q ∧ q.count [2] = some (5, 9) ∧ q.locate [2] = none ∧ (occurrences [2] exBytes).length = 4 := by
    intro F t t' hF h
    obtain ⟨P, q, h1, h2, h3, h4⟩ := loss_history hF h
    exact ⟨t', P, q, h1, h2, h3, h4, by decide⟩
  simp only [looseFiles, List.mem_cons, List.not_mem_nil, or_false] at hr
  rcases hr with rfl | rfl | rfl | rfl | rfl | rfl | rfl | rfl
  · exact key (fun f => decide (f = FileRef.file 2 (.firstSorted, none))) .srCSA .srCSA (fun f h => Or.inl (of_decide_eq_true h)) (by decide +kernel)
  · exact key (fun f => decide (f = FileRef.file 2 (.lastSorted, none))) .srIndex .srIndex (fun f h => Or.inl (of_decide_eq_true h)) (by decide +kernel)
  · exact key (fun f => decide (f = FileRef.file 2 (.psi, some .psi) ∨ f = FileRef.file 2 (.psi, none))) .srCSAWithPsiRun .srCSAWithPsiRun
      (fun f h => of_decide_eq_true h) (by decide +kernel)
  · exact key (fun f => decide (f = FileRef.file 2 (.psiFirstAsc, none))) .srCSAWithPsiRun .srCSAWithPsiRun (fun f h => Or.inl (of_decide_eq_true h)) (by decide +kernel)
  · exact key (fun f => decide (f = FileRef.file 2 (.subFirstIdx, none))) .srCSA .srCSA (fun f h => Or.inl (of_decide_eq_true h)) (by decide +kernel)
  · exact key (fun f => decide (f = FileRef.file 2 (.subLastToFirst, none))) .srCSASlim .srCSASlim (fun f h => Or.inl (of_decide_eq_true h)) (by decide +kernel)
  · exact key (fun f => decide (f = FileRef.file 2 (.subPsiLast, some .ints))) .srCSAWithPsiRun .srCSAWithPsiRun (fun f h => Or.inl (of_decide_eq_true h)) (by decide +kernel)
  · exact key (fun f => decide (f = FileRef.file 2 (.validPsiArea, some .ints))) .psiValidMark .psiValidArea (fun f h => Or.inl (of_decide_eq_true h)) (by decide +kernel)

/-- the indices of the samples along psi that are kept, and these samples, cannot be written at rate 2 -/
def noPsiSamples : File → Bool := fun f => decide (f = FileRef.file 2 (.subPsiIdx, some .ints) ∨ f = FileRef.file 2 (.subPsiFirst, some .ints))

/-- **C74**, violation: that the eight loose files can be written is not enough for constructions that stop. In an empty directory, while the
    indices of the samples that are kept, and these samples, cannot be written, construction of SrCSAWithPsiRun stops with an exception.
    A second process can write every file, constructs the index, and loads it. It counts the four occurrences of the pattern `2`, and
    Locate of it does not return. -/
theorem c74_halt_violation : ∃ F P P' q, Checked F ∧ haltInF F exBytes .srCSAWithPsiRun .sd 2 (Process.fresh Disk.empty) = some P ∧
    constructIn exBytes .srCSAWithPsiRun .sd 2 (Process.fresh P.disk) = some P' ∧ loadIn tokenCodec .srCSAWithPsiRun .sd 2 P' = some q ∧
    q.count [2] = some (5, 9) ∧ q.locate [2] = none ∧ (occurrences [2] exBytes).length = 4 := by
  have h : ((haltInF noPsiSamples exBytes .srCSAWithPsiRun .sd 2 (Process.fresh Disk.empty)).bind (fun P =>
      (constructIn exBytes .srCSAWithPsiRun .sd 2 (Process.fresh P.disk)).bind (fun P' =>
        (loadIn tokenCodec .srCSAWithPsiRun .sd 2 P').map (fun q => (q.count [2], q.locate [2]))))) = some (some (5, 9), none) := by decide +kernel
  obtain ⟨P, h1, h⟩ := Option.bind_eq_some_iff.1 h
  obtain ⟨P', h2, h⟩ := Option.bind_eq_some_iff.1 h
  obtain ⟨q, h3, h⟩ := Option.map_eq_some_iff.1 h
  rw [Prod.mk.injEq] at h
  refine ⟨noPsiSamples, P, P', q, ?_, h1, h2, h3, h.1, h.2, by decide⟩
  intro r hr s
  refine decide_eq_false (fun e => ?_)
  rcases e with e | e <;> (rw [(file_inj e).1] at hr; exact absurd hr (by decide))

/-- the text cannot be written -/
def noText : File → Bool := fun f => decide (f = FileRef.file 2 (.text, none))

/-- a construction that stops, and is repeated: without the text the suffix array cannot be made -/
example : ∃ P P', FaultyHistory exBytes Checked AllChecked (Process.fresh Disk.empty) P ∧
    FaultyHistory exBytes Checked AllChecked (Process.fresh Disk.empty) P' ∧ loadIn tokenCodec .srIndex .sd 2 P = none ∧
    ∃ q, loadIn tokenCodec .srIndex .sd 2 P' = some q ∧ q.locate [2] = some [1, 4, 9, 7] := by
  have h : ((haltInF noText exBytes .srIndex .sd 2 (Process.fresh Disk.empty)).bind (fun P =>
      (constructInF (fun _ => false) exBytes .srIndex .sd 2 P).bind (fun P' =>
        (loadIn tokenCodec .srIndex .sd 2 P').map (fun q => ((loadIn tokenCodec .srIndex .sd 2 P).isNone, q.locate [2]))))) =
      some (true, some [1, 4, 9, 7]) := by decide +kernel
  obtain ⟨P, h1, h⟩ := Option.bind_eq_some_iff.1 h
  obtain ⟨P', h2, h⟩ := Option.bind_eq_some_iff.1 h
  obtain ⟨q, h3, h⟩ := Option.map_eq_some_iff.1 h
  rw [Prod.mk.injEq, Option.isNone_iff_eq_none] at h
  have k1 : FaultyHistory exBytes Checked AllChecked (Process.fresh Disk.empty) P := .halt _ _ _ _ .start (fun r hr s => by
    refine decide_eq_false (fun e => ?_)
    rw [(file_inj e).1] at hr
    exact absurd hr (by decide)) h1
  exact ⟨P, P', k1, .construct _ _ _ _ k1 (fun _ _ _ => rfl) h2, h.1, q, h3, h.2⟩

/-- the suffix array cannot be written -/
def noSA : File → Bool := fun f => decide (f = FileRef.file 2 (.sa, none))

/-- a construction that cannot open the buffer of the suffix array, and is repeated -/
example : ∃ P P', FaultyHistory exBytes Checked AllChecked (Process.fresh Disk.empty) P ∧
    FaultyHistory exBytes Checked AllChecked (Process.fresh Disk.empty) P' ∧ (P.disk (FileRef.file 2 (.text, none))).isSome = true ∧
    loadIn tokenCodec .srIndex .sd 2 P = none ∧ ∃ q, loadIn tokenCodec .srIndex .sd 2 P' = some q ∧ q.locate [2] = some [1, 4, 9, 7] := by
  have h : ((haltInF noSA exBytes .srIndex .sd 2 (Process.fresh Disk.empty)).bind (fun P =>
      (constructInF (fun _ => false) exBytes .srIndex .sd 2 P).bind (fun P' =>
        (loadIn tokenCodec .srIndex .sd 2 P').map (fun q => ((P.disk (FileRef.file 2 (.text, none))).isSome, (loadIn tokenCodec .srIndex .sd 2 P).isNone, q.locate [2]))))) =
      some (true, true, some [1, 4, 9, 7]) := by decide +kernel
  obtain ⟨P, h1, h⟩ := Option.bind_eq_some_iff.1 h
  obtain ⟨P', h2, h⟩ := Option.bind_eq_some_iff.1 h
  obtain ⟨q, h3, h⟩ := Option.map_eq_some_iff.1 h
  rw [Prod.mk.injEq, Prod.mk.injEq, Option.isNone_iff_eq_none] at h
  have k1 : FaultyHistory exBytes Checked AllChecked (Process.fresh Disk.empty) P := .halt _ _ _ _ .start (fun r hr s => by
    refine decide_eq_false (fun e => ?_)
    rw [(file_inj e).1] at hr
    exact absurd hr (by decide)) h1
  exact ⟨P, P', k1, .construct _ _ _ _ k1 (fun _ _ _ => rfl) h2, h.1, h.2.1, q, h3, h.2.2⟩

/- without the links of the marks SrCSASlim answers some patterns and not others -/
example : ((constructInF (fun f => decide (f = FileRef.file 2 (.subLastToFirst, none))) exBytes .srCSASlim .sd 2 (Process.fresh Disk.empty)).bind
    (fun P => (loadIn tokenCodec .srCSASlim .sd 2 P).map (fun q => (q.locate [2], q.locate [1, 2])))) = some (none, some [6, 8, 3, 0]) := by decide +kernel

end Sri

import Verif.Props.SharedDir

/-! # C84: the directory does not remember in which order the indexes were constructed -/
namespace Sri
set_option autoImplicit false

/-- an index asked for: the type, the bit vector of the samples and the rate -/
abbrev Request := IndexType × BvKind × Nat

/-- what a user does in a directory: `some r` constructs an index, `none` ends the process and starts another -/
def runSession (bytes : List Nat) : List (Option Request) → Process → Option Process
  | [], P => some P
  | none :: l, P => runSession bytes l (Process.fresh P.disk)
  | some (t, b, s) :: l, P => (constructIn bytes t b s P).bind (runSession bytes l)

section
variable {bytes : List Nat}

/-- every file of the directory has the name of an item -/
def Named (D : Disk) : Prop := ∀ f, (D f).isSome = true → ∃ (s : Nat) (r : FileRef), r.file s = f

theorem history_named (h0 : ∀ c ∈ bytes, c ≠ 0) (hn : bytes.length + 1 < 2^64) {P : Process}
    (hP : CacheHistory bytes CleanDisk (Process.fresh Disk.empty) P) : Named P.disk := by
  obtain ⟨v, ⟨w⟩⟩ := ideal_exists h0 hn
  have hin := input_of_bytes h0
  induction hP with
  | start => intro f hf; cases hf
  | @construct P P' t b s hH hc ih =>
    obtain ⟨hs, hcl⟩ := history_sound (v := v) (w := w) hin hH
    obtain ⟨es, P'', h1, h2⟩ := construct_run hin t b s hs hcl
    unfold constructIn at hc
    rw [h1] at hc
    cases hc
    intro f hf
    rcases h2.only f hf with h | ⟨r, -, h⟩
    · exact ih f h
    · exact ⟨s, r, h⟩
  | @crash P t b s k hH _ ih =>
    obtain ⟨hs, hcl⟩ := history_sound (v := v) (w := w) hin hH
    obtain ⟨es, P'', h1, h2⟩ := construct_run hin t b s hs hcl
    intro f hf
    have hf' : (P''.disk f).isSome = true := by
      rw [h2.disk, applyAll_exists]
      unfold constructEvents at hf
      simp only [Process.fresh] at hf
      rw [h1, applyAll_exists] at hf
      rcases hf with h | ⟨e, he, h⟩
      · exact Or.inl h
      · exact Or.inr ⟨e, List.mem_of_mem_take he, h⟩
    rcases h2.only f hf' with h | ⟨r, -, h⟩
    · exact ih f h
    · exact ⟨s, r, h⟩
  | @restart P _ ih => exact ih

/-- two directories with the same right files -/
theorem disk_eq {I : Nat → FileRef → Option Item} {D D' : Disk} (h : Right I D) (h' : Right I D') (hw : Whole D) (hw' : Whole D') {f : File}
    (hf : ∃ (s : Nat) (r : FileRef), r.file s = f) (he : (D f).isSome = (D' f).isSome) : D f = D' f := by
  obtain ⟨s, r, rfl⟩ := hf
  cases h1 : D (r.file s) with
  | none =>
    cases h2 : D' (r.file s) with
    | none => rfl
    | some y => rw [h1, h2] at he; cases he
  | some x =>
    cases h2 : D' (r.file s) with
    | none => rw [h1, h2] at he; cases he
    | some y =>
      cases x with
      | none => exact absurd h1 (hw _)
      | some x =>
        cases y with
        | none => exact absurd h2 (hw' _)
        | some y =>
          have e1 := h s r x h1
          have e2 := h' s r y h2
          rw [e1] at e2
          cases e2
          rfl

theorem session_run (h0 : ∀ c ∈ bytes, c ≠ 0) (hn : bytes.length + 1 < 2^64) : ∀ (l : List (Option Request)) {P : Process},
    CacheHistory bytes CleanDisk (Process.fresh Disk.empty) P → ∃ P', runSession bytes l P = some P' ∧
      CacheHistory bytes CleanDisk (Process.fresh Disk.empty) P' ∧
      ∀ f, (P'.disk f).isSome = true ↔ (P.disk f).isSome = true ∨ ∃ t b s, some (t, b, s) ∈ l ∧ ∃ r ∈ outputsOf (program t b), r.file s = f
  | [], P, hP => ⟨P, rfl, hP, fun f => ⟨Or.inl, fun h => h.elim id (fun ⟨_, _, _, h, _⟩ => by cases h)⟩⟩
  | none :: l, P, hP => by
    obtain ⟨P', h1, h2, h3⟩ := session_run h0 hn l (P := Process.fresh P.disk) (.restart hP)
    refine ⟨P', h1, h2, fun f => (h3 f).trans (or_congr Iff.rfl ?_)⟩
    constructor
    · rintro ⟨t, b, s, h, h'⟩; exact ⟨t, b, s, List.mem_cons_of_mem _ h, h'⟩
    · rintro ⟨t, b, s, h, h'⟩
      rcases List.mem_cons.1 h with h | h
      · cases h
      · exact ⟨t, b, s, h, h'⟩
  | some (t, b, s) :: l, P, hP => by
    obtain ⟨v, ⟨w⟩⟩ := ideal_exists h0 hn
    have hin := input_of_bytes h0
    obtain ⟨hs, hcl⟩ := history_sound (v := v) (w := w) hin hP
    obtain ⟨es, P₁, e1, e2⟩ := construct_run hin t b s hs hcl
    have e3 : constructIn bytes t b s P = some P₁ := by unfold constructIn; rw [e1]
    obtain ⟨P', h1, h2, h3⟩ := session_run h0 hn l (.construct t b s hP e3)
    refine ⟨P', by unfold runSession; rw [e3]; exact h1, h2, fun f => (h3 f).trans ?_⟩
    constructor
    · rintro (h | ⟨t', b', s', h, h'⟩)
      · rcases e2.only f h with h | h
        · exact Or.inl h
        · exact Or.inr ⟨t, b, s, List.mem_cons_self, h⟩
      · exact Or.inr ⟨t', b', s', List.mem_cons_of_mem _ h, h'⟩
    · rintro (h | ⟨t', b', s', h, r, hr, hf⟩)
      · exact Or.inl (e2.keeps h)
      · rcases List.mem_cons.1 h with h | h
        · cases h
          exact Or.inl (hf ▸ e2.all r hr)
        · exact Or.inr ⟨t', b', s', h, r, hr, hf⟩

end

/-- **C84**: from a directory with any history (in which a construction may have been killed between two of its steps), constructions of the same
    indexes, in any two orders, any number of times each, in one process or in many: all succeed and the two directories are the same, file by
    file. -/
theorem c84_order (bytes : List Nat) (h0 : ∀ c ∈ bytes, c ≠ 0) (hn : bytes.length + 1 < 2^64) (P : Process)
    (hP : CacheHistory bytes CleanDisk (Process.fresh Disk.empty) P) (l l' : List (Option Request)) (hl : ∀ q : Request, some q ∈ l ↔ some q ∈ l') :
    ∃ P₁ P₂, runSession bytes l P = some P₁ ∧ runSession bytes l' P = some P₂ ∧ P₁.disk = P₂.disk := by
  obtain ⟨P₁, h1, h2, h3⟩ := session_run h0 hn l hP
  obtain ⟨P₂, g1, g2, g3⟩ := session_run h0 hn l' hP
  refine ⟨P₁, P₂, h1, g1, funext fun f => ?_⟩
  obtain ⟨v, ⟨w⟩⟩ := ideal_exists h0 hn
  have hin := input_of_bytes h0
  obtain ⟨s1, -⟩ := history_sound (v := v) (w := w) hin h2
  obtain ⟨s2, -⟩ := history_sound (v := v) (w := w) hin g2
  have he : (P₁.disk f).isSome = (P₂.disk f).isSome := by
    rw [Bool.eq_iff_iff, h3, g3]
    refine or_congr Iff.rfl ⟨?_, ?_⟩
    · rintro ⟨t, b, s, h, h'⟩; exact ⟨t, b, s, (hl _).1 h, h'⟩
    · rintro ⟨t, b, s, h, h'⟩; exact ⟨t, b, s, (hl _).2 h, h'⟩
  cases hf : (P₁.disk f).isSome with
  | true => exact disk_eq s1.right s2.right s1.whole s2.whole (history_named h0 hn h2 f hf) he
  | false =>
    rw [hf] at he
    rw [Option.isSome_eq_false_iff, Option.isNone_iff_eq_none] at hf
    have he := he.symm
    rw [Option.isSome_eq_false_iff, Option.isNone_iff_eq_none] at he
    rw [hf, he]

/-- **C84**: what is in the directory stays as it is, whatever is constructed later. -/
theorem c84_keeps (bytes : List Nat) (h0 : ∀ c ∈ bytes, c ≠ 0) (hn : bytes.length + 1 < 2^64) (P P' : Process)
    (hP : CacheHistory bytes CleanDisk (Process.fresh Disk.empty) P) (l : List (Option Request)) (hl : runSession bytes l P = some P')
    (f : File) (x : Option Item) (hf : P.disk f = some x) : P'.disk f = some x := by
  obtain ⟨P₁, h1, h2, h3⟩ := session_run h0 hn l hP
  rw [hl] at h1
  cases h1
  obtain ⟨v, ⟨w⟩⟩ := ideal_exists h0 hn
  have hin := input_of_bytes h0
  obtain ⟨s1, -⟩ := history_sound (v := v) (w := w) hin hP
  obtain ⟨s2, -⟩ := history_sound (v := v) (w := w) hin h2
  have e : (P.disk f).isSome = true := by rw [hf]; rfl
  rw [← hf]
  exact (disk_eq s1.right s2.right s1.whole s2.whole (history_named h0 hn hP f e) (by rw [e, (h3 f).2 (Or.inl e)])).symm

/-- **C84**: an index that has been constructed is there for good: after any further constructions, constructing it again stores nothing and
    loading it gives the index that its text has (both in a new process). -/
theorem c84_again {α : Type} (K : Codec α) (bytes : List Nat) (h0 : ∀ c ∈ bytes, c ≠ 0) (hn : bytes.length + 1 < 2^64) (P P' : Process)
    (hP : CacheHistory bytes CleanDisk (Process.fresh Disk.empty) P) (l : List (Option Request)) (hl : runSession bytes l P = some P')
    (t : IndexType) (b : BvKind) (s : Nat) (hq : some (t, b, s) ∈ l) :
    constructEvents bytes t b s (Process.fresh P'.disk) = [] ∧ constructIn bytes t b s (Process.fresh P'.disk) = some (Process.fresh P'.disk) ∧
      loadIn K t b s (Process.fresh P'.disk) = indexFromBytes t bytes s := by
  obtain ⟨P₁, h1, h2, h3⟩ := session_run h0 hn l hP
  rw [hl] at h1
  cases h1
  obtain ⟨v, ⟨w⟩⟩ := ideal_exists h0 hn
  have hin := input_of_bytes h0
  obtain ⟨hs, -⟩ := history_sound (v := v) (w := w) hin (CacheHistory.restart h2)
  have hall : ∀ r ∈ outputsOf (program t b), ((Process.fresh P'.disk).disk (r.file s)).isSome = true := fun r hr =>
    (h3 _).2 (Or.inr ⟨t, b, s, hq, r, hr, rfl⟩)
  have hr : runSteps bytes s (program t b) (Process.fresh P'.disk) = ([], some (Process.fresh P'.disk)) := by
    refine all_skipped (fun st hst => ?_)
    obtain ⟨g, h3, h4, h5⟩ := guards_are_outputs t b st hst
    rw [List.any_eq_true]
    exact ⟨g, h3, by rw [has_eq hs.map h5]; exact hall g h4⟩
  refine ⟨by unfold constructEvents; rw [hr], by unfold constructIn; rw [hr], ?_⟩
  obtain ⟨p, hp, hC⟩ := ran_hasIndex (Ran.refl (s := s) hs (outs := outputsOf (program t b)) hall)
  obtain ⟨I, S, h3, -, h4, -⟩ := load_constructed K hp hC (S := []) (fun _ _ => Or.inl rfl)
  unfold loadIn
  unfold rateArg at h3
  rw [h3]
  simp only [Option.bind_eq_bind, Option.bind_some]
  rw [h4]
  unfold indexFromBytes
  rw [hin.text]

-- two indexes at two rates, in one process and, the other way round and one of them twice, in two
example : ∃ P₁ P₂, runSession exBytes [some (.srIndex, .sd, 2), some (.psiValidArea, .sd, 3)] (Process.fresh Disk.empty) = some P₁ ∧
    runSession exBytes [some (.psiValidArea, .sd, 3), none, some (.srIndex, .sd, 2), some (.psiValidArea, .sd, 3)] (Process.fresh Disk.empty) = some P₂ ∧
    P₁.disk = P₂.disk :=
  c84_order exBytes (by decide) (by decide) _ .start _ _ (by simp [or_comm])

-- the files of the first index are there to be kept, and it is one of those asked for
example : ∃ P P', runSession exBytes [some (.srIndex, .sd, 2)] (Process.fresh Disk.empty) = some P ∧
    runSession exBytes [none, some (.rIndex, .sd, 1), some (.srIndex, .sd, 2)] P = some P' ∧
    (∀ f x, P.disk f = some x → P'.disk f = some x) ∧ (P.disk (FileRef.file 2 (.subFirstToLast, none))).isSome = true ∧
    constructEvents exBytes .srIndex .sd 2 (Process.fresh P'.disk) = [] := by
  obtain ⟨P, h1, h2, h3⟩ := session_run (bytes := exBytes) (by decide) (by decide) [some (.srIndex, .sd, 2)] .start
  obtain ⟨P', g1, -, -⟩ := session_run (bytes := exBytes) (by decide) (by decide) [none, some (.rIndex, .sd, 1), some (.srIndex, .sd, 2)] h2
  exact ⟨P, P', h1, g1, fun f x => c84_keeps exBytes (by decide) (by decide) P P' h2 _ g1 f x,
    (h3 _).2 (Or.inr ⟨_, _, _, List.mem_cons_self, (.subFirstToLast, none), by decide +kernel, rfl⟩),
    (c84_again tokenCodec exBytes (by decide) (by decide) P P' h2 _ g1 .srIndex .sd 2 (by simp)).1⟩

end Sri

import Verif.Proofs.SharedDir
/-! # C45: one directory for several data sets -/
namespace Sri
set_option autoImplicit false

section
variable {ι : Type} [DecidableEq ι] {hash : ItemType → List Char} {data : ι → DataSet}

theorem moves_keep {ok : Disk → Prop} {W W' : Workshop ι} (h : Workshop.Moves hash data ok W W') (n : List Char) (hn : (W.dir n).isSome = true) :
    (W'.dir n).isSome = true := by
  induction h with
  | refl => exact hn
  | @step W' W'' _ hm ih =>
    cases hm with
    | store i t b s e es rest hi =>
      cases e <;> simp only [Directory.apply] <;> split <;> first | rfl | exact ih
    | _ => exact ih

theorem Workshop.Moves.trans {ok : Disk → Prop} {W W' W'' : Workshop ι} (h : Workshop.Moves hash data ok W W')
    (h' : Workshop.Moves hash data ok W' W'') : Workshop.Moves hash data ok W W'' := by
  induction h' with
  | refl => exact h
  | step _ hm ih => exact .step ih hm

/-- **C45** (partial): data sets whose ids are separated share a directory; a process for each of them constructs indexes, at any rates; the
    processes run at the same time and their moves, down to the single store, come in any order; they may crash where `c34_resume_partial`
    allows it. Once a process has come to the end of a construction, its index is there for good: whatever the processes do afterwards, it
    loads, as the index of the bytes of its own data set, with exact answers. What is missing are data sets whose ids are not separated,
    see the violations below. -/
theorem c45_apart_partial {α : Type} (K : Codec α) (hh : GoodHash hash) (hsep : ∀ i j, i ≠ j → Separated (data i).id (data j).id)
    (W W' : Workshop ι) (hW : Workshop.Moves hash data CleanDisk (Workshop.start ι) W) (i : ι) (h0 : ∀ c ∈ (data i).bytes, c ≠ 0)
    (hn : (data i).bytes.length + 1 < 2^64) (t : IndexType) (b : BvKind) (s : Nat) (hj : W.job i = some ⟨t, b, s, [], []⟩)
    (hW' : Workshop.Moves hash data CleanDisk W W') (hi : W'.job i = none) :
    ∃ q, loadIn K t b s (W'.process hash data i) = some q ∧ indexFromBytes t (data i).bytes s = some q ∧
      ∀ X, X ≠ [] → (∀ c ∈ X, c ∈ (data i).bytes) → ∃ a z l, q.count X = some (a, z) ∧ q.locate X = some l ∧ a ≤ z ∧
        z - a = (occurrences X (data i).bytes).length ∧ l.Perm (occurrences X (data i).bytes) := by
  obtain ⟨v, ⟨w⟩⟩ := ideal_exists h0 hn
  have hin := input_of_bytes h0
  -- the files of the index are there at the end of the construction
  have hall : ∀ r ∈ outputsOf (program t b), ((W.process hash data i).disk (r.file s)).isSome = true := by
    have h1 := reached_own hh hsep hW i
    rw [hj] at h1
    cases h1 with
    | @work P₀ _ Q done h1 h2 h3 h4 h5 =>
      obtain ⟨hs, hc⟩ := history_sound (v := v) (w := w) hin h1
      obtain ⟨es, P', h6, h7⟩ := construct_run hin t b s hs hc
      subst h3
      dsimp only at h4
      rw [h6, Prod.mk.injEq] at h4
      have : P'.disk = (W.process hash data i).disk := by
        have := Option.some.inj h4.2
        rw [this]; rfl
      rw [← this]
      exact h7.all
  have hall' : ∀ r ∈ outputsOf (program t b), ((W'.process hash data i).disk (r.file s)).isSome = true := by
    intro r hr
    have := hall r hr
    unfold Workshop.process Directory.view at this ⊢
    dsimp only at this ⊢
    rw [wellNamed_file, if_pos rfl] at this ⊢
    exact moves_keep hW' _ this
  have h1 := reached_own hh hsep (hW.trans hW') i
  rw [hi] at h1
  cases h1 with
  | rest h1 =>
    obtain ⟨hs, hc⟩ := history_sound (v := v) (w := w) hin h1
    obtain ⟨p, hp, hC⟩ := ran_hasIndex (Ran.refl hs hall')
    obtain ⟨I, S, h3, -, h4, -⟩ := load_constructed K hp hC (S := []) (fun _ _ => Or.inl rfl)
    obtain ⟨q, h5, h6⟩ := c01_end_to_end t (data i).bytes h0 hn s
    refine ⟨q, ?_, h5, h6⟩
    unfold loadIn
    unfold rateArg at h3
    rw [h3]
    simp only [Option.bind_eq_bind, Option.bind_some]
    rw [h4, ← h5]
    unfold indexFromBytes
    rw [hin.text]

/-- **C45** (partial), progress: in the same setting no construction faults or waits for another: at any time, a process that is not at the
    end of its construction has a move that brings it nearer to the end. -/
theorem c45_progress_partial (hh : GoodHash hash) (hsep : ∀ i j, i ≠ j → Separated (data i).id (data j).id)
    (W : Workshop ι) (hW : Workshop.Moves hash data CleanDisk (Workshop.start ι) W) (i : ι) (h0 : ∀ c ∈ (data i).bytes, c ≠ 0)
    (hn : (data i).bytes.length + 1 < 2^64) (j : Job) (hj : W.job i = some j) (hend : ¬ (j.todo = [] ∧ j.rest = [])) :
    ∃ W' j', Workshop.Move hash data CleanDisk W W' ∧ W'.job i = some j' ∧ j'.t = j.t ∧ j'.b = j.b ∧ j'.s = j.s ∧
      (j'.rest.length < j.rest.length ∨ j'.rest = j.rest ∧ j'.todo.length < j.todo.length) := by
  have h1 := reached_own hh hsep hW i
  rw [hj] at h1
  obtain ⟨t, b, s, todo, rest⟩ := j
  cases todo with
  | cons e es => exact ⟨_, _, .store i t b s e es rest hj, if_pos rfl, rfl, rfl, rfl, Or.inr ⟨rfl, by simp⟩⟩
  | nil =>
    cases rest with
    | nil => exact absurd ⟨rfl, rfl⟩ hend
    | cons st rest =>
      cases hg : st.guards.any (fun r => (W.process hash data i).has (r.file s)) with
      | true => exact ⟨_, _, .skip i t b s st rest hj hg, if_pos rfl, rfl, rfl, rfl, Or.inl (by simp)⟩
      | false =>
        cases hr : st.run (data i).bytes s (W.process hash data i) with
        | some es => exact ⟨_, _, .enter i t b s st rest es hj hg hr, if_pos rfl, rfl, rfl, rfl, Or.inl (by simp)⟩
        | none =>
          cases h1 with
          | @work P₀ _ Q done h1 h2 h3 h4 h5 =>
            subst h3
            dsimp only at h4
            have e : ({ disk := Disk.applyAll (W.process hash data i).disk [], fileMap := (W.process hash data i).fileMap } : Process) =
              W.process hash data i := rfl
            rw [e, runSteps_cons, hg, hr] at h4
            obtain ⟨v, ⟨w⟩⟩ := ideal_exists h0 hn
            have hin := input_of_bytes h0
            obtain ⟨hs, hc⟩ := history_sound (v := v) (w := w) hin h1
            obtain ⟨es, P', h6, -⟩ := construct_run hin t b s hs hc
            rw [h6] at h4
            simp at h4

/-- **C45** (partial), completion: so every construction that is under way can be brought to its end, whatever the others have done. -/
theorem c45_completes_partial (hh : GoodHash hash) (hsep : ∀ i j, i ≠ j → Separated (data i).id (data j).id)
    (W : Workshop ι) (hW : Workshop.Moves hash data CleanDisk (Workshop.start ι) W) (i : ι) (h0 : ∀ c ∈ (data i).bytes, c ≠ 0)
    (hn : (data i).bytes.length + 1 < 2^64) (j : Job) (hj : W.job i = some j) :
    ∃ W', Workshop.Moves hash data CleanDisk W W' ∧ W'.job i = some ⟨j.t, j.b, j.s, [], []⟩ := by
  have key : ∀ n m, ∀ (W : Workshop ι) (j : Job), Workshop.Moves hash data CleanDisk (Workshop.start ι) W → W.job i = some j →
      j.rest.length ≤ n → j.todo.length ≤ m → ∃ W', Workshop.Moves hash data CleanDisk W W' ∧ W'.job i = some ⟨j.t, j.b, j.s, [], []⟩ := by
    intro n
    induction n with
    | zero =>
      intro m
      induction m with
      | zero =>
        intro W j hW hj h1 h2
        obtain ⟨t, b, s, todo, rest⟩ := j
        obtain rfl : todo = [] := List.length_eq_zero_iff.1 (Nat.le_zero.1 h2)
        obtain rfl : rest = [] := List.length_eq_zero_iff.1 (Nat.le_zero.1 h1)
        exact ⟨W, .refl, hj⟩
      | succ m ih =>
        intro W j hW hj h1 h2
        by_cases he : j.todo = [] ∧ j.rest = []
        · exact ih W j hW hj h1 (by rw [he.1]; simp)
        · obtain ⟨W', j', hm, hj', e1, e2, e3, hd⟩ := c45_progress_partial hh hsep W hW i h0 hn j hj he
          rcases hd with hd | ⟨hd, hl⟩
          · omega
          · obtain ⟨W'', h3, h4⟩ := ih W' j' (.step hW hm) hj' (by rw [hd]; omega) (by omega)
            exact ⟨W'', (Workshop.Moves.step .refl hm).trans h3, by rw [h4, e1, e2, e3]⟩
    | succ n ihn =>
      intro m
      induction m with
      | zero =>
        intro W j hW hj h1 h2
        by_cases he : j.todo = [] ∧ j.rest = []
        · exact ihn 0 W j hW hj (by rw [he.2]; simp) h2
        · obtain ⟨W', j', hm, hj', e1, e2, e3, hd⟩ := c45_progress_partial hh hsep W hW i h0 hn j hj he
          rcases hd with hd | ⟨hd, hl⟩
          · obtain ⟨W'', h3, h4⟩ := ihn j'.todo.length W' j' (.step hW hm) hj' (by omega) (Nat.le_refl _)
            exact ⟨W'', (Workshop.Moves.step .refl hm).trans h3, by rw [h4, e1, e2, e3]⟩
          · omega
      | succ m ih =>
        intro W j hW hj h1 h2
        by_cases he : j.todo = [] ∧ j.rest = []
        · exact ih W j hW hj h1 (by rw [he.1]; simp)
        · obtain ⟨W', j', hm, hj', e1, e2, e3, hd⟩ := c45_progress_partial hh hsep W hW i h0 hn j hj he
          rcases hd with hd | ⟨hd, hl⟩
          · obtain ⟨W'', h3, h4⟩ := ihn j'.todo.length W' j' (.step hW hm) hj' (by omega) (Nat.le_refl _)
            exact ⟨W'', (Workshop.Moves.step .refl hm).trans h3, by rw [h4, e1, e2, e3]⟩
          · obtain ⟨W'', h3, h4⟩ := ih W' j' (.step hW hm) hj' (by rw [hd]; omega) (by omega)
            exact ⟨W'', (Workshop.Moves.step .refl hm).trans h3, by rw [h4, e1, e2, e3]⟩
  exact key _ _ W j hW hj (Nat.le_refl _) (Nat.le_refl _)

end

/-- decimal numbers for the types -/
def exHash : ItemType → List Char
  | .alphabet => "101".toList
  | .bwtRle => "112".toList
  | .psi => "123".toList
  | .ints => "134".toList
  | .sdVector => "145".toList
  | .bitVector => "156".toList
  | .sdRank => "167".toList
  | .sdSelect => "178".toList
  | .bitRank0 => "189".toList
  | .bitRank1 => "190".toList
  | .bitSelect1 => "201".toList

theorem exHash_good : GoodHash exHash where
  nonempty := by intro ty; cases ty <;> decide
  digits := by intro ty; cases ty <;> decide
  inj := by intro a b; cases a <;> cases b <;> decide

/-- two data sets -/
def exData : Bool → DataSet
  | false => ⟨"/data/a.txt".toList, exBytes⟩
  | true => ⟨"/data/b.txt".toList, [2, 1, 2, 1, 3]⟩

theorem exData_separated : ∀ i j, i ≠ j → Separated (exData i).id (exData j).id := by
  have : ∀ i j, i ≠ j → ¬ '_' :: (exData i).id <:+ (exData j).id ∧ (exData i).id ≠ (exData j).id := by decide +kernel
  exact fun i j h => separated_of_suffix (this i j h).2 (this i j h).1 (this j i (Ne.symm h)).1

-- an id may extend the other by a word of its own
example : Separated "dna.txt".toList "human_dna.txt".toList ∧ ¬ Separated "dna.txt".toList "text_pos_dna.txt".toList := by
  refine ⟨⟨by decide, fun c hc => ⟨"human".toList, ?_, by decide +kernel⟩, fun c hc => ?_⟩, fun h => ?_⟩
  · have : "human_dna.txt".toList = "human".toList ++ '_' :: "dna.txt".toList := by decide +kernel
    rw [this] at hc
    rw [← List.append_cancel_right hc]
    decide +kernel
  · have := congrArg List.length hc
    rw [List.length_append, List.length_cons] at this
    have h1 : "dna.txt".toList.length = 7 := by decide +kernel
    have h2 : "human_dna.txt".toList.length = 13 := by decide +kernel
    omega
  · obtain ⟨w, h1, h2⟩ := h.2.1 "text_pos".toList (by decide +kernel)
    have : ∀ w ∈ wordsOf "text_pos".toList, isKeyWord w = true := by decide +kernel
    rw [this w h1] at h2
    cases h2

-- both at work at the same time, the first at the end of its construction
example : ∃ W, Workshop.Moves exHash exData CleanDisk (Workshop.start Bool) W ∧ W.job false = some ⟨.srIndex, .sd, 2, [], []⟩ ∧ W.job true ≠ none := by
  obtain ⟨W, hW⟩ : ∃ W : Workshop Bool, W = { (Workshop.start Bool) with
    job := fun k => if k = false then some ⟨.srIndex, .sd, 2, [], program .srIndex .sd⟩ else none } := ⟨_, rfl⟩
  have h1 : Workshop.Moves exHash exData CleanDisk (Workshop.start Bool) W := by rw [hW]; exact .step .refl (.begin false .srIndex .sd 2 rfl)
  obtain ⟨W', h2, h3⟩ := c45_completes_partial exHash_good exData_separated W h1 false (by decide) (by decide) _ (by rw [hW]; rfl)
  cases h4 : W'.job true with
  | none =>
    have h5 : Workshop.Moves exHash exData CleanDisk (Workshop.start Bool) _ := .step (h1.trans h2) (.begin true .rIndex .sd 1 h4)
    exact ⟨_, h5, h3, by simp⟩
  | some j => exact ⟨W', h1.trans h2, h3, by rw [h4]; simp⟩

/-! ## Violations -/

/-- the file name of a data set does not tell its directory -/
theorem configId_name (d n : List Char) (hn : '/' ∉ n) : configId (d ++ '/' :: n) = n := by
  unfold configId
  rw [List.reverse_append, List.reverse_cons, List.append_assoc, List.takeWhile_append_of_pos]
  · simp
  · intro c hc
    rw [List.mem_reverse] at hc
    simp only [bne_iff_ne, ne_eq]
    rintro rfl
    exact hn hc

theorem guards_are_outputs (t : IndexType) (b : BvKind) : ∀ st ∈ program t b, ∃ g ∈ st.guards, g ∈ outputsOf (program t b) ∧ g ≠ (.subPsiIdx, none) := by
  have : (program t b).all (fun st => st.guards.any (fun g => decide (g ∈ outputsOf (program t b)) && decide (g ≠ (.subPsiIdx, none)))) = true := by
    cases t <;> cases b <;> decide +kernel
  intro st hst
  have h := List.all_eq_true.1 this st hst
  rw [List.any_eq_true] at h
  obtain ⟨g, h1, h2⟩ := h
  rw [Bool.and_eq_true, decide_eq_true_iff, decide_eq_true_iff] at h2
  exact ⟨g, h1, h2⟩

theorem all_skipped {bytes : List Nat} {s : Nat} {P : Process} : ∀ {steps : List CacheStep},
    (∀ st ∈ steps, st.guards.any (fun r => P.has (r.file s)) = true) → runSteps bytes s steps P = ([], some P)
  | [], _ => rfl
  | st :: steps, h => by
    rw [runSteps_cons, if_pos (h st List.mem_cons_self)]
    exact all_skipped (fun st' h' => h st' (List.mem_cons_of_mem _ h'))

/-- **C45**, violation 1: two data sets with the same file name, in different directories (`configId_name`), or one whose content has been
    changed. For all contents: once an index of the first is constructed, construction of the same index of the second in that directory
    succeeds without a single store, and what loads is the index of the first. -/
theorem c45_same_name_violation {α : Type} (K : Codec α) (hash : ItemType → List Char) (d d' : DataSet) (hid : d'.id = d.id)
    (h0 : ∀ c ∈ d.bytes, c ≠ 0) (hn : d.bytes.length + 1 < 2^64) (P P₁ : Process)
    (hP : CacheHistory d.bytes CleanDisk (Process.fresh Disk.empty) P) (t : IndexType) (b : BvKind) (s : Nat)
    (hc : constructIn d.bytes t b s P = some P₁) (dir : Directory) (hdir : dir.view hash d.id = P₁.disk) :
    constructEvents d'.bytes t b s (Process.fresh (dir.view hash d'.id)) = [] ∧
      ∃ P₂, constructIn d'.bytes t b s (Process.fresh (dir.view hash d'.id)) = some P₂ ∧ loadIn K t b s P₂ = indexFromBytes t d.bytes s := by
  obtain ⟨v, ⟨w⟩⟩ := ideal_exists h0 hn
  have hin := input_of_bytes h0
  obtain ⟨hs, hcl⟩ := history_sound (v := v) (w := w) hin hP
  obtain ⟨es, P', h1, h2⟩ := construct_run hin t b s hs hcl
  unfold constructIn at hc
  rw [h1] at hc
  cases hc
  rw [hid, hdir]
  have hs' : Sound (ideal v w) (Process.fresh P₁.disk) := ⟨h2.sound.right, h2.sound.whole, fun _ _ h => by cases h⟩
  have hr : runSteps d'.bytes s (program t b) (Process.fresh P₁.disk) = ([], some (Process.fresh P₁.disk)) := by
    refine all_skipped (fun st hst => ?_)
    obtain ⟨g, h3, h4, h5⟩ := guards_are_outputs t b st hst
    rw [List.any_eq_true]
    exact ⟨g, h3, by rw [has_eq hs'.map h5]; exact h2.all g h4⟩
  refine ⟨by unfold constructEvents; rw [hr], Process.fresh P₁.disk, by unfold constructIn; rw [hr], ?_⟩
  obtain ⟨p, hp, hC⟩ := ran_hasIndex (Ran.refl (s := s) hs' (outs := outputsOf (program t b)) h2.all)
  obtain ⟨I, S, h3, -, h4, -⟩ := load_constructed K hp hC (S := []) (fun _ _ => Or.inl rfl)
  unfold loadIn
  unfold rateArg at h3
  rw [h3]
  simp only [Option.bind_eq_bind, Option.bind_some]
  rw [h4]
  unfold indexFromBytes
  rw [hin.text]

/-- what Locate answers for the data sets (a first, then b) after an index of each is constructed, one after the other -/
def locateBoth (a b : DataSet) (t : IndexType) (s : Nat) (X : List Nat) : Option (List Nat) × Option (List Nat) :=
  let d₀ : Directory := fun _ => none
  let d₁ := d₀.applyAll exHash a.id (constructEvents a.bytes t .sd s (Process.fresh (d₀.view exHash a.id)))
  let d₂ := d₁.applyAll exHash b.id (constructEvents b.bytes t .sd s (Process.fresh (d₁.view exHash b.id)))
  ((loadIn tokenCodec t .sd s (Process.fresh (d₂.view exHash a.id))).bind (·.locate X),
   (loadIn tokenCodec t .sd s (Process.fresh (d₂.view exHash b.id))).bind (·.locate X))

-- separated ids, and equal ids: the second data set, [2,1,2,1,3], has its occurrences of 2 at 0 and 2
example : locateBoth (exData false) (exData true) .rIndex 1 [2] = (some [1, 4, 9, 7], some [2, 0]) ∧
    locateBoth (exData false) ⟨"/other/a.txt".toList, [2, 1, 2, 1, 3]⟩ .rIndex 1 [2] = (some [1, 4, 9, 7], some [1, 4, 9, 7]) := by
  decide +kernel

/-- **C45**, violation 2: file names that differ are not enough. The file in which the data set `text_pos_x` keeps the first positions of its
    runs has the name of that in which `x` keeps the text positions of these, for every `x`; and likewise for the last positions. -/
theorem c45_prefix_violation (hash : ItemType → List Char) (x : List Char) :
    diskName hash ("text_pos_".toList ++ x) (FileRef.file 0 (.first, none)) = diskName hash x (FileRef.file 0 (.firstTextPos, none)) ∧
    diskName hash ("text_pos_".toList ++ x) (FileRef.file 0 (.last, none)) = diskName hash x (FileRef.file 0 (.lastTextPos, none)) := ⟨rfl, rfl⟩

set_option maxHeartbeats 2000000 in
/-- **C45**, violation 2, what comes of it: for every index type, after an index of data set `x` is constructed, that of `text_pos_x` cannot be
    answered from: Locate fails or there is no index. -/
theorem c45_prefix_index_violation (t : IndexType) :
    (locateBoth ⟨"x".toList, exBytes⟩ ⟨"text_pos_x".toList, exBytes⟩ t 2 [2]).2 = none ∧
    (locateBoth ⟨"x".toList, exBytes⟩ ⟨"pos_x".toList, exBytes⟩ t 2 [2]).2 = (indexFromBytes t exBytes 2).bind (·.locate [2]) := by
  cases t <;> refine ⟨?_, ?_⟩ <;> decide +kernel

/-- **C45**, violation 3: two processes at work on the same data set. For every text and all indexes: if the one has made its first store,
    the construction of the other fails. -/
theorem c45_same_data_violation (bytes : List Nat) (h0 : ∀ c ∈ bytes, c ≠ 0) (t t' : IndexType) (b b' : BvKind) (s s' : Nat) :
    constructIn bytes t' b' s' (Process.fresh (Disk.empty.applyAll ((constructEvents bytes t b s (Process.fresh Disk.empty)).take 1))) = none := by
  have hp : ∀ t b, ∃ rest, program t b = Steps.text :: Steps.sa :: rest := by intro t b; cases t <;> exact ⟨_, rfl⟩
  have ht := (input_of_bytes h0).text
  obtain ⟨rest, hr⟩ := hp t b
  obtain ⟨rest', hr'⟩ := hp t' b'
  have h1 : (constructEvents bytes t b s (Process.fresh Disk.empty)).take 1 = [.opened (FileRef.file 0 (.text, none))] := by
    unfold constructEvents
    rw [hr, runSteps_cons, if_neg (by simp [Steps.text, Process.has, Process.fresh, Process.fileName, Disk.empty])]
    have : Steps.text.run bytes s (Process.fresh Disk.empty) = some (storeEvents s [[(.text, none)]] [.ints (bytes ++ [0])]) := by
      unfold CacheStep.run Steps.text
      simp only [List.mapM_nil, Option.bind_eq_bind, Option.bind_some, Option.pure_def, ht]
    rw [this]
    rfl
  rw [h1]
  unfold constructIn
  rw [hr', runSteps_cons,
    if_pos (by simp [Steps.text, Process.has, Process.fresh, Process.fileName, FileRef.file, FileName.key, Disk.applyAll, Disk.apply]), runSteps_cons,
    if_neg (by simp [Steps.sa, Process.has, Process.fresh, Process.fileName, FileRef.file, FileName.key, Disk.applyAll, Disk.apply, Disk.empty])]
  have : Steps.sa.run bytes s' (Process.fresh (Disk.empty.applyAll [.opened (FileRef.file 0 (.text, none))])) = none := rfl
  rw [this]

end Sri

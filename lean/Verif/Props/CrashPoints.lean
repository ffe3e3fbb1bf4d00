import Verif.Props.Crash
import Verif.Proofs.CacheGap
/-! # C34: which crash points can be resumed from, and which cannot for any text -/
namespace Sri
set_option autoImplicit false

/-- a directory from which every construction resumes: of every step of every construction, if a file by which the step is skipped is there,
    all that the step writes was written to the end; and the samples of psi runs are there only with the marks. Other files may be half
    written. -/
structure MendableDisk (D : Disk) : Prop where
  steps : ∀ t b, ∀ st ∈ program t b, ∀ s, ∀ g ∈ st.guards, (D (g.file s)).isSome = true → ∀ r ∈ st.outputs.flatten, ∃ x, D (r.file s) = some (some x)
  psi : ∀ s, (D (FileRef.file s (.subPsiFirst, some .ints))).isSome = true → (D (FileRef.file s (.subPsiLast, some .ints))).isSome = true

theorem CleanDisk.mendable {D : Disk} (h : CleanDisk D) : MendableDisk D :=
  ⟨fun t b st hst s g hg he r hr => complete_of (h.steps t b st hst s g hg he r hr) (h.whole _), h.psi⟩

/-- a directory from which the construction of one index at one rate resumes: as above for the steps of this construction, and only for those
    of their files that a step of it or the load of the index reads -/
structure MendableFor (t : IndexType) (b : BvKind) (s : Nat) (D : Disk) : Prop where
  steps : ∀ st ∈ program t b, ∀ g ∈ st.guards, (D (g.file s)).isSome = true → ∀ r ∈ st.outputs.flatten, r ∈ t.reads b →
    ∃ x, D (r.file s) = some (some x)
  psi : (D (FileRef.file s (.subPsiFirst, some .ints))).isSome = true → (D (FileRef.file s (.subPsiLast, some .ints))).isSome = true

theorem MendableDisk.one {D : Disk} (h : MendableDisk D) (t : IndexType) (b : BvKind) (s : Nat) : MendableFor t b s D :=
  ⟨fun st hst g hg he r hr _ => h.steps t b st hst s g hg he r hr, h.psi s⟩

section
variable {T sa bytes : List Nat} {v : BaseVals T sa} {w : ∀ s, RateVals v s}

theorem MendableDisk.after {s : Nat} {P P' : Process} (h : MendableDisk P.disk) {outs : List FileRef} (hc : Closed outs) (hp : PsiPaired outs)
    {es : List CacheEvent} (hr : Mended (ideal v w) (fun _ => true) s P outs es P') : MendableDisk P'.disk where
  steps := by
    intro t' b' st hst s' g hg he r hr'
    rcases hr.only _ he with he | ⟨q, hq, e⟩
    · exact hr.keeps _ (h.steps t' b' st hst s' g hg he r hr')
    · obtain ⟨rfl, hs⟩ := file_inj e
      have h2 := shapes_rate _ (shape_mem t' b' st hst) q hg r hr'
      have := hr.all r (hc _ (shape_mem t' b' st hst) q hg hq r hr') rfl
      cases hk : q.1.key.1 with
      | true => rw [← hs hk]; exact this
      | false => rw [file_eq_of_plain (h2 hk) s' s]; exact this
  psi := by
    intro s' he
    rcases hr.only _ he with he | ⟨q, hq, e⟩
    · have := h.psi s' he
      rw [hr.disk, applyAll_exists]; exact Or.inl this
    · obtain ⟨rfl, hs⟩ := file_inj e
      have := (hr.all _ (hp hq) rfl).exists
      rw [← hs rfl]; exact this

theorem mendable_run (h : Input bytes T sa) (t : IndexType) (b : BvKind) (s : Nat) {P : Process} (hR : Right (ideal v w) P.disk) (hM : MapOK P.fileMap)
    (hD : MendableFor t b s P.disk) : ∃ es P', runSteps bytes s (program t b) P = (es, some P') ∧
      Mended (ideal v w) (fun r => decide (r ∈ t.reads b)) s P (outputsOf (program t b)) es P' :=
  program_mend h t b s (fun r => decide (r ∈ t.reads b)) (fun _ hr => decide_eq_true hr) hR hM
    (fun st hst g hg he r hr hN => hD.steps st hst g hg he r hr (of_decide_eq_true hN)) hD.psi

/-- the state of a process in a history whose crashes leave a mendable directory -/
theorem history_mend (h : Input bytes T sa) {P : Process} (hP : CacheHistory bytes MendableDisk (Process.fresh Disk.empty) P) :
    Right (ideal v w) P.disk ∧ MapOK P.fileMap ∧ MendableDisk P.disk := by
  induction hP with
  | start => exact ⟨(sound_empty _).right, (sound_empty (ideal v w)).map, cleanDisk_empty.mendable⟩
  | @construct P P' t b s _ hc ih =>
    obtain ⟨es, P'', h1, h2⟩ := program_mend h t b s (fun _ => true) (fun _ _ => rfl) ih.1 ih.2.1
      (fun st hst g hg he r hr _ => ih.2.2.steps t b st hst s g hg he r hr) (ih.2.2.psi s)
    unfold constructIn at hc
    rw [h1] at hc
    cases hc
    exact ⟨h2.stay, h2.map, ih.2.2.after (prefix_closed (List.append_nil _).symm) (psi_check t b) h2⟩
  | @crash P t b s k _ hok ih =>
    obtain ⟨es, P'', h1, h2⟩ := program_mend h t b s (fun _ => true) (fun _ _ => rfl) ih.1 ih.2.1
      (fun st hst g hg he r hr _ => ih.2.2.steps t b st hst s g hg he r hr) (ih.2.2.psi s)
    refine ⟨?_, fun _ _ h => (by cases h), hok⟩
    have e : constructEvents bytes t b s P = es := by unfold constructEvents; rw [h1]
    exact applyAll_right _ ih.1 (fun e' he' => h2.right e' (by rw [e] at he'; exact List.mem_of_mem_take he'))
  | restart _ ih => exact ⟨ih.1, fun _ _ h => (by cases h), ih.2.2⟩

theorem hasIndex_load {α : Type} (K : Codec α) (h0 : ∀ c ∈ bytes, c ≠ 0) (hn : bytes.length + 1 < 2^64) {t : IndexType} {b : BvKind} {s : Nat}
    {P : Process} (h : P.cache.HasIndex t b (bytes ++ [0]) (suffixArray (bytes ++ [0])) s) :
    ∃ q, loadIn K t b s P = some q ∧ indexFromBytes t bytes s = some q ∧
      ∀ X, X ≠ [] → (∀ c ∈ X, c ∈ bytes) → ∃ i j l, q.count X = some (i, j) ∧ q.locate X = some l ∧ i ≤ j ∧
        j - i = (occurrences X bytes).length ∧ l.Perm (occurrences X bytes) := by
  obtain ⟨p, hp, hC⟩ := h
  obtain ⟨I, S, h3, -, h4, -⟩ := load_constructed K hp hC (S := []) (fun _ _ => Or.inl rfl)
  obtain ⟨q, h5, h6⟩ := c01_end_to_end t bytes h0 hn s
  refine ⟨q, ?_, h5, h6⟩
  unfold loadIn
  unfold rateArg at h3
  rw [h3]
  simp only [Option.bind_eq_bind, Option.bind_some]
  rw [h4, ← h5]
  unfold indexFromBytes
  rw [(input_of_bytes h0).text]

end

/-- **C34** (partial): `c34_resume_partial` for more crash points. The crashes of the history may leave files half written, if no step is
    skipped because of them (`MendableDisk`); and then one more crash comes, in the construction of any index at any rate after any number
    of its stores. If it leaves what the index `t` at rate `s` needs (`MendableFor`), the construction of `t`, started again, completes, and
    what it leaves in the cache loads as the very index that an uninterrupted construction gives, with exact answers. -/
theorem c34_restart_partial {α : Type} (K : Codec α) (bytes : List Nat) (h0 : ∀ c ∈ bytes, c ≠ 0) (hn : bytes.length + 1 < 2^64) (P : Process)
    (hP : CacheHistory bytes MendableDisk (Process.fresh Disk.empty) P) (t' : IndexType) (b' : BvKind) (s' k : Nat) (D : Disk)
    (hD : D = P.disk.applyAll ((constructEvents bytes t' b' s' P).take k)) (t : IndexType) (b : BvKind) (s : Nat) (hm : MendableFor t b s D) :
    ∃ P' q, constructIn bytes t b s (Process.fresh D) = some P' ∧ loadIn K t b s P' = some q ∧ indexFromBytes t bytes s = some q ∧
      ∀ X, X ≠ [] → (∀ c ∈ X, c ∈ bytes) → ∃ i j l, q.count X = some (i, j) ∧ q.locate X = some l ∧ i ≤ j ∧
        j - i = (occurrences X bytes).length ∧ l.Perm (occurrences X bytes) := by
  obtain ⟨v, ⟨w⟩⟩ := ideal_exists h0 hn
  have hin := input_of_bytes h0
  obtain ⟨hR, hM, hMD⟩ := history_mend (v := v) (w := w) hin hP
  have hR' : Right (ideal v w) D := by
    obtain ⟨es, P'', h1, h2⟩ := program_mend hin t' b' s' (fun _ => true) (fun _ _ => rfl) hR hM
      (fun st hst g hg he r hr _ => hMD.steps t' b' st hst s' g hg he r hr) (hMD.psi s')
    rw [hD]
    have e : constructEvents bytes t' b' s' P = es := by unfold constructEvents; rw [h1]
    exact applyAll_right _ hR (fun e' he' => h2.right e' (by rw [e] at he'; exact List.mem_of_mem_take he'))
  obtain ⟨es, P', h1, h2⟩ := mendable_run (v := v) (w := w) hin t b s (P := Process.fresh D) hR' (fun _ _ h => by cases h) hm
  obtain ⟨q, h3⟩ := hasIndex_load K h0 hn (mended_hasIndex (fun _ hr => decide_eq_true hr) h2)
  exact ⟨P', q, by unfold constructIn; rw [h1], h3⟩

/-! ## Crash points after which the index is lost, for every text -/

/-- what every step of every construction keeps, every history keeps -/
theorem history_kept {bytes : List Nat} (J : Process → Prop) (safe : CacheEvent → Prop)
    (hstep : ∀ t b s, ∀ st ∈ program t b, ∀ (P : Process) (es : List CacheEvent), J P → ¬ (st.guards.any (fun r => P.has (r.file s)) = true) →
      st.run bytes s P = some es → (∀ e ∈ es, safe e) ∧ J (st.after s es P))
    (hnew : ∀ (P : Process) (es : List CacheEvent), J P → (∀ e ∈ es, safe e) → J (Process.fresh (P.disk.applyAll es)))
    {ok : Disk → Prop} {P₀ P : Process} (h₀ : J P₀) (hP : CacheHistory bytes ok P₀ P) : J P := by
  induction hP with
  | start => exact h₀
  | construct t b s _ hc ih => exact (run_kept J safe s _ _ (hstep t b s) ih).2 _ hc
  | @crash P t b s k _ _ ih => exact hnew P _ ih (fun e he => (run_kept J safe s _ _ (hstep t b s) ih).1 e (List.mem_of_mem_take he))
  | restart _ ih => exact hnew _ [] ih (by simp)

theorem psiGap_forever {bytes : List Nat} {s : Nat} {ok : Disk → Prop} {P₀ P : Process} (h₀ : PsiGap s P₀) (hP : CacheHistory bytes ok P₀ P) :
    PsiGap s P :=
  history_kept (PsiGap s) (PsiSafe s) (fun t b _ => psiGap_step t b) (fun _ _ h he => h.disk he (fun _ _ h => by cases h) rfl) h₀ hP

theorem areaGap_forever {bytes : List Nat} {s : Nat} {ok : Disk → Prop} {P₀ P : Process} (h₀ : AreaGap s P₀) (hP : CacheHistory bytes ok P₀ P) :
    AreaGap s P :=
  history_kept (AreaGap s) (AreaSafe s) (fun t b _ => areaGap_step t b) (fun _ _ h he => h.disk he (fun _ _ h => by cases h)) h₀ hP

/-- construction of a class with valid marks fails without marks -/
theorem psiGap_construct {bytes : List Nat} {t : IndexType} (ht : t = .psiValidMark ∨ t = .psiValidArea) (b : BvKind) {s : Nat} {P : Process}
    (h : PsiGap s P) : constructIn bytes t b s P = none := by
  have main : ∀ (p q : List CacheStep) (P : Process), (∀ st ∈ p, ∃ t b, st ∈ program t b) → PsiGap s P →
      (runSteps bytes s (p ++ Steps.validityPsi :: q) P).2 = none := by
    intro p q
    induction p with
    | nil =>
      intro P _ h
      rw [List.nil_append, runSteps_cons, if_neg, h.validity]
      simp only [Steps.validityPsi, List.any_cons, List.any_nil, Bool.or_false, Bool.or_eq_true]
      rintro (h1 | h1)
      · rw [has_eq h.map (by decide), h.valid] at h1; cases h1
      · rw [has_eq h.map (by decide), h.valid] at h1; cases h1
    | cons st p ih =>
      intro P hp h
      rw [List.cons_append, runSteps_cons]
      split
      · exact ih P (fun st' h' => hp st' (List.mem_cons_of_mem _ h')) h
      · rename_i hng
        cases hr : st.run bytes s P with
        | none => rfl
        | some es =>
          obtain ⟨t', b', hst⟩ := hp st List.mem_cons_self
          exact ih _ (fun st' h' => hp st' (List.mem_cons_of_mem _ h')) (psiGap_step t' b' st hst P es h hng hr).2
  unfold constructIn
  have e : ∃ q, program t b = Steps.srCSAWithPsiRun b ++ Steps.validityPsi :: q := by
    rcases ht with rfl | rfl
    · exact ⟨_, rfl⟩
    · exact ⟨[Steps.validBits .validPsiMark (.validPsiMark, some .ints) (.subPsiLast, some .ints), Steps.areasPsi], by
        simp only [program, Steps.psiValidMark, List.append_assoc, List.cons_append, List.nil_append]⟩
  obtain ⟨q, e⟩ := e
  rw [e]
  exact main _ q P (fun st h => ⟨.srCSAWithPsiRun, b, h⟩) h

section
variable {T sa : List Nat} {v : BaseVals T sa} {w : ∀ s, RateVals v s}

theorem partsOf_marks {t : IndexType} (ht : t = .srCSAWithPsiRun ∨ t = .psiValidMark ∨ t = .psiValidArea) {s : Nat} {p : Parts}
    (hp : partsOf t T sa s = some p) : p.marks = (w s).markP := by
  rw [partsOf_vals (v := v) (w := w) t s] at hp
  cases hp
  rcases ht with rfl | rfl | rfl <;> rfl

theorem partsOf_areas {s : Nat} {p : Parts} (hp : partsOf .psiValidArea T sa s = some p) : p.validAreas = (w s).valP.map (·.2) := by
  rw [partsOf_vals (v := v) (w := w) _ s] at hp
  cases hp
  rfl

/-- some mark is kept at every rate -/
theorem markP_some (s : Nat) : true ∈ (w s).markP := by
  have h := (w s).hvalP
  have hm := (w s).hmarkP
  cases hsub : (w s).subP with
  | nil => rw [hsub, validityInts_nil] at h; cases h
  | cons x l =>
    rw [hsub] at hm
    unfold bitVectorFromInts at hm
    simp only [Option.bind_eq_bind, Option.bind_eq_some_iff, Option.pure_def, Option.some.injEq, assertC] at hm
    obtain ⟨_, h1, h2⟩ := hm
    split at h1
    · rename_i hall
      rw [← h2]
      rw [List.all_eq_true] at hall
      exact List.mem_map.2 ⟨x, List.mem_range.2 (of_decide_eq_true (hall x List.mem_cons_self)), by simp⟩
    · cases h1

end

theorem ideal_marks {bytes : List Nat} (h0 : ∀ c ∈ bytes, c ≠ 0) (hn : bytes.length + 1 < 2^64) {t : IndexType}
    (ht : t = .srCSAWithPsiRun ∨ t = .psiValidMark ∨ t = .psiValidArea) (s : Nat) :
    ∃ ideal, partsOf t (bytes ++ [0]) (suffixArray (bytes ++ [0])) s = some ideal ∧ true ∈ ideal.marks := by
  obtain ⟨v, ⟨w⟩⟩ := ideal_exists h0 hn
  exact ⟨_, partsOf_vals (v := v) (w := w) t s, by rw [partsOf_marks (w := w) ht (partsOf_vals (v := v) (w := w) t s)]; exact markP_some s⟩

/-- the directory between the samples of psi runs and their marks, for every text -/
theorem psi_cut {bytes : List Nat} (h0 : ∀ c ∈ bytes, c ≠ 0) (hn : bytes.length + 1 < 2^64) {t : IndexType}
    (ht : t = .srCSAWithPsiRun ∨ t = .psiValidMark ∨ t = .psiValidArea) (b : BvKind) (s : Nat) :
    ∃ q es Q, program t b = (psiPre ++ [Steps.samplesPsi]) ++ q ∧
      runSteps bytes s (psiPre ++ [Steps.samplesPsi]) (Process.fresh Disk.empty) = (es, some Q) ∧ Disk.empty.applyAll es = Q.disk ∧
      (∀ f, Q.disk f ≠ some none) ∧ PsiGap s (Process.fresh Q.disk) := by
  obtain ⟨v, ⟨w⟩⟩ := ideal_exists h0 hn
  have hin := input_of_bytes h0
  obtain ⟨q, hprog⟩ : ∃ q, program t b = psiPre ++ ([Steps.samplesPsi] ++ q) := by
    rcases ht with rfl | rfl | rfl <;>
      exact ⟨_, by simp only [program, Steps.srCSAWithPsiRun, psiPre, List.append_assoc, List.cons_append, List.nil_append]; rfl⟩
  obtain ⟨es, P₁, h1, h2⟩ := prefix_run (v := v) (w := w) hin t b s hprog (by unfold PsiPaired; decide +kernel) (sound_empty _) cleanDisk_empty
  have no : ∀ r : FileRef, r ∉ outputsOf psiPre → P₁.disk (r.file s) = none := by
    intro r hr
    cases hd : P₁.disk (r.file s) with
    | none => rfl
    | some c =>
      rcases h2.only (r.file s) (by rw [hd]; rfl) with h | ⟨r', hr', e⟩
      · cases h
      · obtain ⟨rfl, -⟩ := file_inj e
        exact absurd hr' hr
  have hA : ∀ r ∈ [((.psiFirst, some .ints) : FileRef), (.psiFirstAsc, none), (.psiLink, some .ints)],
      r ≠ (.subPsiIdx, none) ∧ r ∈ outputsOf psiPre := by decide +kernel
  obtain ⟨es2, h3, h4⟩ := step_mend (ideal_rateFree v w) (ok_program (v := v) (w := w) (s := s) hin t b Steps.samplesPsi (by rw [hprog]; simp))
    h2.sound.right h2.sound.map (by decide) (fun q hq => by
      have : q.ref ∈ [((.psiFirst, some .ints) : FileRef), (.psiFirstAsc, none), (.psiLink, some .ints)] := by
        simp only [Steps.samplesPsi, List.mem_cons, List.not_mem_nil, or_false] at hq
        rcases hq with rfl | rfl | rfl <;> simp [CacheRead.ref]
      obtain ⟨a1, a2⟩ := hA _ this
      exact ⟨q.ref, h2.sound.map.fileName a1, complete_of (h2.all _ a2) (h2.sound.whole _), rfl⟩)
  have hng : ¬ (Steps.samplesPsi.guards.any (fun r => P₁.has (r.file s)) = true) := by
    simp only [Steps.samplesPsi, List.any_cons, List.any_nil, Bool.or_false]
    rw [has_eq h2.sound.map (by decide), no _ (by decide +kernel)]
    simp
  have hp2 : runSteps bytes s (psiPre ++ [Steps.samplesPsi]) (Process.fresh Disk.empty) = (es ++ es2, some (Steps.samplesPsi.after s es2 P₁)) := by
    rw [runSteps_append bytes s _ _ _ h1, runSteps_cons, if_neg hng, h3]
    dsimp only [runSteps]
    rw [List.append_nil]
  have hdisk : Disk.empty.applyAll (es ++ es2) = (Steps.samplesPsi.after s es2 P₁).disk := by
    rw [applyAll_append]
    have := h2.disk
    change P₁.disk = Disk.empty.applyAll es at this
    rw [← this]; rfl
  obtain ⟨Q, hQ⟩ : ∃ Q, Q = Steps.samplesPsi.after s es2 P₁ := ⟨_, rfl⟩
  rw [← hQ] at hdisk h4 hp2
  have no2 : ∀ r : FileRef, r ∉ outputsOf psiPre ++ Steps.samplesPsi.outputs.flatten → Q.disk (r.file s) = none := by
    intro r hr
    cases hd : Q.disk (r.file s) with
    | none => rfl
    | some c =>
      rcases h4.only (r.file s) (by rw [hd]; rfl) with h | ⟨r', hr', e⟩
      · rw [no r (fun h => hr (List.mem_append_left _ h))] at h; cases h
      · obtain ⟨rfl, -⟩ := file_inj e
        exact absurd (List.mem_append_right _ hr') hr
  refine ⟨q, es ++ es2, Q, by rw [hprog, List.append_assoc], hp2, hdisk, ?_, ?_⟩
  · intro f hf
    obtain ⟨xs, ys, -, hc, he⟩ := run_events h3
    rw [h4.disk, he] at hf
    have hl : Steps.samplesPsi.outputs.flatten.length = ys.length := by
      simp only [Steps.samplesPsi] at hc ⊢
      split at hc
      · simp only [Option.bind_eq_bind, Option.bind_eq_some_iff, Option.pure_def, Option.some.injEq] at hc
        obtain ⟨_, -, _, -, rfl⟩ := hc
        rfl
      · cases hc
    exact h2.sound.whole f (storeEvents_torn s _ _ hl hf).1
  · refine ⟨(h4.all _ (by decide) rfl).exists, no2 _ (by decide +kernel), rfl, fun _ _ h => (by cases h), ?_, ?_, ?_⟩
    · intro x hx
      rw [show (Process.fresh Q.disk).disk = Q.disk from rfl, no2 _ (by decide +kernel)] at hx; cases hx
    · intro x hx
      rw [show (Process.fresh Q.disk).disk = Q.disk from rfl, no2 _ (by decide +kernel)] at hx; cases hx
    · intro ty
      refine no2 _ ?_
      have : ∀ r ∈ outputsOf psiPre ++ Steps.samplesPsi.outputs.flatten, r.1 ≠ .validPsiMark := by decide +kernel
      exact fun h => this _ h rfl

theorem psiGap_marks {bytes : List Nat} (h0 : ∀ c ∈ bytes, c ≠ 0) (hn : bytes.length + 1 < 2^64) {t : IndexType}
    (ht : t = .srCSAWithPsiRun ∨ t = .psiValidMark ∨ t = .psiValidArea) (b : BvKind) {s : Nat} {P : Process} (hg : PsiGap s P) :
    ¬ P.cache.HasIndex t b (bytes ++ [0]) (suffixArray (bytes ++ [0])) s ∧
      (∀ x, P.cache (keyOf t (buildPrefix t s) .marks) (some .sdVector) = some x → ∃ n, x = .sdVector (List.replicate n false)) := by
  have hfile : (keyOf t (buildPrefix t s) .marks, some .sdVector) = FileRef.file s (.subPsiLast, some .sdVector) := by
    rcases ht with rfl | rfl | rfl <;> rfl
  have hmarks : ∀ x, P.cache (keyOf t (buildPrefix t s) .marks) (some .sdVector) = some x → ∃ n, x = .sdVector (List.replicate n false) := by
    intro x hx
    unfold Process.cache at hx
    rw [hfile, hg.map.fileName (by decide)] at hx
    obtain ⟨c, hc, hcx⟩ := Option.bind_eq_some_iff.1 hx
    cases hcx
    exact hg.bits x hc
  refine ⟨?_, hmarks⟩
  · rintro ⟨p, hp, hC⟩
    obtain ⟨a, ha, ha2⟩ : ∃ a ∈ accesses t b, a = ⟨.marks, .self, a.ty, a.sty, true⟩ ∧ a.ty = .sdVector := by
      rcases ht with rfl | rfl | rfl <;> cases b <;> decide +kernel
    have h5 := hC _ (List.mem_map.2 ⟨a, ha, rfl⟩)
    obtain ⟨a1, a2⟩ := ha2
    rw [a1, a2] at h5
    dsimp only at h5
    obtain ⟨n, hn'⟩ := hmarks _ (by simpa using h5)
    have h6 : (itemOf b p ⟨.marks, .self, .sdVector⟩).unbound = .sdVector p.marks := rfl
    rw [h6] at hn'
    have h7 := Item.sdVector.inj hn'
    obtain ⟨i, hi, hi2⟩ := ideal_marks h0 hn ht s
    rw [hp] at hi
    cases hi
    rw [h7] at hi2
    exact absurd (List.eq_of_mem_replicate hi2) (by decide)

/-- **C34**, violation 2, for every text and rate: SrCSAWithPsiRun, SRCSAValidMark and SRCSAValidArea. Let the crash come between the steps
    `p` that write the samples of psi runs and before, and the next one, which writes the marks: no file is half written and no step half
    done. Whatever happens to the cache afterwards, any constructions, crashes and new processes, the construction of SRCSAValidMark and of
    SRCSAValidArea at this rate fails; and the marks in the cache are none, while the index that an uninterrupted construction gives has one. -/
theorem c34_psi_forever_violation (bytes : List Nat) (h0 : ∀ c ∈ bytes, c ≠ 0) (hn : bytes.length + 1 < 2^64) (t : IndexType)
    (ht : t = .srCSAWithPsiRun ∨ t = .psiValidMark ∨ t = .psiValidArea) (b : BvKind) (s : Nat) :
    (∃ ideal, partsOf t (bytes ++ [0]) (suffixArray (bytes ++ [0])) s = some ideal ∧ true ∈ ideal.marks) ∧
    ∃ k D p q, program t b = p ++ q ∧ k = (runSteps bytes s p (Process.fresh Disk.empty)).1.length ∧
      D = Disk.empty.applyAll ((constructEvents bytes t b s (Process.fresh Disk.empty)).take k) ∧ (∀ f, D f ≠ some none) ∧
      ∀ P, CacheHistory bytes (fun _ => True) (Process.fresh D) P →
        ¬ P.cache.HasIndex t b (bytes ++ [0]) (suffixArray (bytes ++ [0])) s ∧
        (∀ x, P.cache (keyOf t (buildPrefix t s) .marks) (some .sdVector) = some x → ∃ n, x = .sdVector (List.replicate n false)) ∧
        (t ≠ .srCSAWithPsiRun → constructIn bytes t b s P = none) := by
  refine ⟨ideal_marks h0 hn ht s, ?_⟩
  obtain ⟨q, es, Q, hprog, hp2, hdisk, hwhole, gap⟩ := psi_cut h0 hn ht b s
  have htake : (constructEvents bytes t b s (Process.fresh Disk.empty)).take es.length = es := by
    unfold constructEvents
    rw [hprog, runSteps_append bytes s _ q _ hp2, List.take_left']
    rfl
  refine ⟨_, _, psiPre ++ [Steps.samplesPsi], q, hprog, rfl, rfl, ?_, ?_⟩
  · rw [hp2, htake, hdisk]
    exact hwhole
  · rw [hp2, htake, hdisk]
    intro P hP
    have hg := psiGap_forever gap hP
    exact ⟨(psiGap_marks h0 hn ht b hg).1, (psiGap_marks h0 hn ht b hg).2, fun hne => psiGap_construct (ht.resolve_left hne) b hg⟩

/-- **C34**, violation 3, for every text and rate: SRCSAValidArea. Let the crash come when the validity of the marks is stored and the areas are
    not: no file is half written. Construction, started again, completes, but whatever happens to the cache afterwards, it holds no area: if
    the index that an uninterrupted construction gives has one, this index is never in the cache again. (The step that writes both is
    skipped, as the validity exists; the one after it stores the areas that it could not read.) SRCSAValidMark is not affected. -/
theorem c34_areas_violation (bytes : List Nat) (h0 : ∀ c ∈ bytes, c ≠ 0) (hn : bytes.length + 1 < 2^64) (b : BvKind) (s : Nat) :
    ∃ k D, D = Disk.empty.applyAll ((constructEvents bytes .psiValidArea b s (Process.fresh Disk.empty)).take k) ∧ (∀ f, D f ≠ some none) ∧
      (∃ P, constructIn bytes .psiValidArea b s (Process.fresh D) = some P ∧
        P.cache.HasIndex .psiValidMark b (bytes ++ [0]) (suffixArray (bytes ++ [0])) s ∧
        P.cache (keyOf .psiValidArea (buildPrefix .psiValidArea s) .validAreas) (some .ints) = some (.ints [])) ∧
      ∀ P, CacheHistory bytes (fun _ => True) (Process.fresh D) P →
        (∀ x, P.cache (keyOf .psiValidArea (buildPrefix .psiValidArea s) .validAreas) (some .ints) = some x → x = .ints []) ∧
        ((∃ ideal, partsOf .psiValidArea (bytes ++ [0]) (suffixArray (bytes ++ [0])) s = some ideal ∧ ideal.validAreas ≠ []) →
          ¬ P.cache.HasIndex .psiValidArea b (bytes ++ [0]) (suffixArray (bytes ++ [0])) s) := by
  obtain ⟨v, ⟨w⟩⟩ := ideal_exists h0 hn
  have hin := input_of_bytes h0
  obtain ⟨q, hq⟩ : ∃ q, q = [Steps.validBits .validPsiMark (.validPsiMark, some .ints) (.subPsiLast, some .ints), Steps.areasPsi] := ⟨_, rfl⟩
  have hprog : program .psiValidArea b = Steps.srCSAWithPsiRun b ++ ([Steps.validityPsi] ++ q) := by
    rw [hq]; simp only [program, Steps.psiValidMark, List.append_assoc, List.cons_append, List.nil_append]
  obtain ⟨es, P₁, h1, h2⟩ := prefix_run (v := v) (w := w) hin .psiValidArea b s hprog (psi_check .srCSAWithPsiRun b) (sound_empty _) cleanDisk_empty
  have no : ∀ r : FileRef, r ∉ outputsOf (Steps.srCSAWithPsiRun b) → P₁.disk (r.file s) = none := by
    intro r hr
    cases hd : P₁.disk (r.file s) with
    | none => rfl
    | some c =>
      rcases h2.only (r.file s) (by rw [hd]; rfl) with h | ⟨r', hr', e⟩
      · cases h
      · obtain ⟨rfl, -⟩ := file_inj e
        exact absurd hr' hr
  have hA : ∀ r ∈ [((.psiLast, some .ints) : FileRef), (.subPsiLast, some .ints)],
      r ≠ (.subPsiIdx, none) ∧ r ∈ outputsOf (Steps.srCSAWithPsiRun b) := by cases b <;> decide +kernel
  have hO : ∀ r ∈ [((.validPsiMark, some .ints) : FileRef), (.validPsiMark, some .bitVector), (.validPsiArea, some .ints)],
      r ∉ outputsOf (Steps.srCSAWithPsiRun b) := by cases b <;> decide +kernel
  obtain ⟨es2, h3, h4⟩ := step_mend (ideal_rateFree v w) (ok_program (v := v) (w := w) (s := s) hin .psiValidArea b Steps.validityPsi (by rw [hprog]; simp))
    h2.sound.right h2.sound.map (by decide) (fun q hq => by
      have : q.ref ∈ [((.psiLast, some .ints) : FileRef), (.subPsiLast, some .ints)] := by
        simp only [Steps.validityPsi, List.mem_cons, List.not_mem_nil, or_false] at hq
        rcases hq with rfl | rfl <;> simp [CacheRead.ref]
      obtain ⟨a1, a2⟩ := hA _ this
      exact ⟨q.ref, h2.sound.map.fileName a1, complete_of (h2.all _ a2) (h2.sound.whole _), rfl⟩)
  have hng : ¬ (Steps.validityPsi.guards.any (fun r => P₁.has (r.file s)) = true) := by
    simp only [Steps.validityPsi, List.any_cons, List.any_nil, Bool.or_false, Bool.or_eq_true]
    rw [has_eq h2.sound.map (by decide), no _ (hO _ (by decide)), has_eq h2.sound.map (by decide), no _ (hO _ (by decide))]
    simp
  obtain ⟨x, rest, he2⟩ : ∃ x rest, es2 = [.opened (FileRef.file s (.validPsiMark, some .ints)), .closed (FileRef.file s (.validPsiMark, some .ints)) x] ++ rest := by
    obtain ⟨xs, ys, -, hc, rfl⟩ := run_events h3
    simp only [Steps.validityPsi] at hc ⊢
    split at hc
    · simp only [Option.bind_eq_bind, Option.bind_eq_some_iff, Option.pure_def, Option.some.injEq] at hc
      obtain ⟨_, -, rfl⟩ := hc
      exact ⟨_, _, rfl⟩
    · cases hc
  have hev : (constructEvents bytes .psiValidArea b s (Process.fresh Disk.empty)).take (es.length + 2) =
      es ++ [.opened (FileRef.file s (.validPsiMark, some .ints)), .closed (FileRef.file s (.validPsiMark, some .ints)) x] := by
    unfold constructEvents
    rw [hprog, runSteps_append bytes s _ _ _ h1, List.singleton_append, runSteps_cons, if_neg hng, h3, he2]
    dsimp only
    rw [List.append_assoc, List.take_length_add_append]
    rfl
  have hD : Disk.empty.applyAll (es ++ [.opened (FileRef.file s (.validPsiMark, some .ints)), .closed (FileRef.file s (.validPsiMark, some .ints)) x]) =
      fun f => if f = FileRef.file s (.validPsiMark, some .ints) then some (some x) else P₁.disk f := by
    rw [applyAll_append]
    have := h2.disk
    change P₁.disk = Disk.empty.applyAll es at this
    rw [← this]
    funext f
    simp only [Disk.applyAll, List.foldl_cons, List.foldl_nil, Disk.apply]
    split <;> rfl
  obtain ⟨D, hDD⟩ : ∃ D : Disk, D = fun f => if f = FileRef.file s (.validPsiMark, some .ints) then some (some x) else P₁.disk f := ⟨_, rfl⟩
  rw [← hDD] at hD
  have hDr : ∀ r : FileRef, r ≠ (.validPsiMark, some .ints) → D (r.file s) = P₁.disk (r.file s) := fun r hr => by
    rw [hDD]; exact if_neg (fun e => hr (file_inj e).1)
  have hDm : D (FileRef.file s (.validPsiMark, some .ints)) = some (some x) := by rw [hDD]; exact if_pos rfl
  have gap : AreaGap s (Process.fresh D) := by
    refine ⟨by rw [show (Process.fresh D).disk = D from rfl, hDm]; rfl, fun y hy => ?_, fun _ _ h => by cases h⟩
    rw [show (Process.fresh D).disk = D from rfl, hDr _ (by decide), no _ (hO _ (by decide))] at hy
    cases hy
  have hfile : (keyOf .psiValidArea (buildPrefix .psiValidArea s) .validAreas, some .ints) = FileRef.file s (.validPsiArea, some .ints) := rfl
  have hareas : ∀ P : Process, AreaGap s P → ∀ y, P.cache (keyOf .psiValidArea (buildPrefix .psiValidArea s) .validAreas) (some .ints) = some y → y = .ints [] := by
    intro P hg y hy
    unfold Process.cache at hy
    rw [hfile, hg.map.fileName (by decide)] at hy
    obtain ⟨c, hc, hcx⟩ := Option.bind_eq_some_iff.1 hy
    cases hcx
    exact hg.areas y hc
  have whole : ∀ f, D f ≠ some none := by
    intro f hf
    rw [hDD] at hf
    dsimp only at hf
    split at hf
    · cases hf
    · exact h2.sound.whole f hf
  have hmend : MendableFor .psiValidMark b s D := by
    have key : ∀ st ∈ program .psiValidMark b, st.guards.all (fun g => decide (g ∈ outputsOf (Steps.srCSAWithPsiRun b))) = true ∧
        st.outputs.flatten.all (fun r => decide (r ∈ outputsOf (Steps.srCSAWithPsiRun b))) = true ∨ st = Steps.validityPsi ∨
        st = Steps.validBits .validPsiMark (.validPsiMark, some .ints) (.subPsiLast, some .ints) := by
      intro st hst
      rcases List.mem_append.1 hst with hst | hst
      · left
        have : (Steps.srCSAWithPsiRun b).all (fun st => st.guards.all (fun g => decide (g ∈ outputsOf (Steps.srCSAWithPsiRun b))) &&
          st.outputs.flatten.all (fun r => decide (r ∈ outputsOf (Steps.srCSAWithPsiRun b)))) = true := by cases b <;> decide +kernel
        have := List.all_eq_true.1 this st hst
        rwa [Bool.and_eq_true] at this
      · simp only [Steps.psiValidMark, List.mem_cons, List.not_mem_nil, or_false] at hst
        tauto
    refine ⟨fun st hst g hg he r hr hN => ?_, fun he => ?_⟩
    · rcases key st hst with ⟨-, k2⟩ | rfl | rfl
      · have hro := of_decide_eq_true (List.all_eq_true.1 k2 r hr)
        have : r ≠ (.validPsiMark, some .ints) := fun e => hO _ (by decide) (e ▸ hro)
        rw [hDr r this]
        exact complete_of (h2.all _ hro) (h2.sound.whole _)
      · simp only [Steps.validityPsi, List.flatten_cons, List.flatten_nil, List.append_nil, List.cons_append, List.nil_append, List.mem_cons,
          List.not_mem_nil, or_false] at hr
        rcases hr with rfl | rfl
        · exact ⟨x, hDm⟩
        · exact absurd hN (by cases b <;> decide +kernel)
      · simp only [Steps.validBits, List.mem_singleton] at hg
        subst hg
        rw [hDr _ (by decide), no _ (hO _ (by decide))] at he
        cases he
    · rw [hDr _ (by decide)] at he ⊢
      exact h2.all _ (psi_check .srCSAWithPsiRun b (by cases b <;> decide +kernel))
  have hR : Right (ideal v w) D := by
    rw [← hD]
    have hall : ∀ e ∈ es ++ [.opened (FileRef.file s (.validPsiMark, some .ints)), .closed (FileRef.file s (.validPsiMark, some .ints)) x], e.Right (ideal v w) := by
      intro e he
      rcases List.mem_append.1 he with he | he
      · exact h2.right e he
      · exact h4.right e (by rw [he2]; exact List.mem_append_left _ he)
    exact applyAll_right _ (sound_empty (ideal v w)).right hall
  refine ⟨es.length + 2, D, by rw [hev, hD], whole, ?_, ?_⟩
  · obtain ⟨es3, P₃, r1, r2⟩ := mendable_run (v := v) (w := w) hin .psiValidMark b s (P := Process.fresh D) hR (fun _ _ h => by cases h) hmend
    have e : program .psiValidArea b = program .psiValidMark b ++ [Steps.areasPsi] := rfl
    have hg3 : AreaGap s P₃ := (run_kept (AreaGap s) (AreaSafe s) s _ _ (areaGap_step .psiValidMark b) gap).2 P₃ (by rw [r1])
    have hnot : P₃.disk (FileRef.file s (.validPsiArea, some .ints)) = none := by
      cases hd : P₃.disk (FileRef.file s (.validPsiArea, some .ints)) with
      | none => rfl
      | some c =>
        exfalso
        have : ∀ e ∈ es3, e.file ≠ FileRef.file s (.validPsiArea, some .ints) := by
          have := (run_kept (bytes := bytes) (fun Q => (Q.disk (FileRef.file s (.validPsiMark, some .ints))).isSome = true ∧ MapOK Q.fileMap)
            (fun e => e.file ≠ FileRef.file s (.validPsiArea, some .ints)) s (program .psiValidMark b) (Process.fresh D) (fun st hst Q es' hQ hng' hr' => ?_)
            ⟨gap.there, gap.map⟩).1
          · rwa [r1] at this
          · refine ⟨fun e he hf => ?_, (applyAll_exists _ _ _).2 (Or.inl hQ.1), mapOK_after hQ.2 (guarded_all _ b .psiLast (by decide) st hst).2⟩
            obtain ⟨r, hr1, hr2⟩ := run_file hr' he
            rw [hf] at hr2
            obtain ⟨rfl, -⟩ := file_inj hr2
            rcases List.mem_append.1 hst with hst | hst
            · exact hO _ (by decide) (List.mem_flatMap.2 ⟨st, hst, hr1⟩)
            · simp only [Steps.psiValidMark, List.mem_cons, List.not_mem_nil, or_false] at hst
              rcases hst with rfl | rfl
              · refine hng' ?_
                simp only [Steps.validityPsi, List.any_cons, List.any_nil, Bool.or_false, Bool.or_eq_true]
                exact Or.inr ((has_eq hQ.2 (by decide)).trans hQ.1)
              · exact absurd hr1 (by decide +kernel)
        rw [r2.disk] at hd
        rcases (applyAll_exists es3 (Process.fresh D).disk _).1 (by rw [hd]; rfl) with h | ⟨e, he, hf⟩
        · rw [show (Process.fresh D).disk = D from rfl, hDr _ (by decide), no _ (hO _ (by decide))] at h; cases h
        · exact this e he hf
    have hrun : Steps.areasPsi.run bytes s P₃ = some [.opened (FileRef.file s (.validPsiArea, some .ints)), .closed (FileRef.file s (.validPsiArea, some .ints)) (.ints [])] := by
      simp only [CacheStep.run, Steps.areasPsi, List.mapM_cons, List.mapM_nil, CacheRead.run, hg3.map.fileName (show ((.validPsiArea, some .ints) : FileRef) ≠ (.subPsiIdx, none) by decide), hnot]
      rfl
    have hskip : ¬ (Steps.areasPsi.guards.any (fun r => P₃.has (r.file s)) = true) := by
      simp only [Steps.areasPsi, List.any_cons, List.any_nil, Bool.or_false]
      rw [has_eq hg3.map (by decide), hnot]
      simp
    refine ⟨_, by unfold constructIn; rw [e, runSteps_append bytes s _ _ _ r1, runSteps_cons, if_neg hskip, hrun]; rfl, ?_, ?_⟩
    · obtain ⟨p, hp, hC⟩ := mended_hasIndex (fun _ hr => decide_eq_true hr) r2
      refine ⟨p, hp, fun f hf => ?_⟩
      have h5 := hC f hf
      obtain ⟨a, ha, rfl⟩ := List.mem_map.1 hf
      dsimp only at h5 ⊢
      unfold Process.cache at h5 ⊢
      rw [access_file ha] at h5 ⊢
      have hne : accessRef .psiValidMark a ≠ (.validPsiArea, some .ints) := by
        have : ∀ a ∈ accesses .psiValidMark b, accessRef .psiValidMark a ≠ (.validPsiArea, some .ints) := by cases b <;> decide +kernel
        exact this a ha
      rw [MapOK.fileName r2.map (access_named _ b a ha)] at h5
      rw [MapOK.fileName (by exact r2.map) (access_named _ b a ha), ← h5]
      congr 1
      simp only [CacheStep.after, Disk.applyAll, List.foldl_cons, List.foldl_nil, Disk.apply]
      rw [if_neg (fun e => hne (file_inj e).1), if_neg (fun e => hne (file_inj e).1)]
    · unfold Process.cache
      rw [hfile, MapOK.fileName (by exact r2.map) (by decide)]
      simp [CacheStep.after, Disk.applyAll, Disk.apply]
  · intro P hP
    have hg := areaGap_forever gap hP
    refine ⟨hareas P hg, ?_⟩
    rintro ⟨i, hi, hi2⟩ ⟨p, hp, hC⟩
    rw [hi] at hp
    cases hp
    obtain ⟨a, ha, ha2⟩ : ∃ a ∈ accesses .psiValidArea b, a = ⟨.validAreas, .self, .ints, a.sty, true⟩ := by
      cases b <;> decide +kernel
    have h5 := hC _ (List.mem_map.2 ⟨a, ha, rfl⟩)
    rw [ha2] at h5
    dsimp only at h5
    have h6 := hareas P hg _ (by simpa using h5)
    have h7 : (itemOf b i ⟨.validAreas, .self, .ints⟩).unbound = .ints i.validAreas := rfl
    rw [h7] at h6
    exact hi2 (Item.ints.inj h6)

/-! ## Examples -/

/-- `MendableFor` as a check -/
def mendableCheck (t : IndexType) (b : BvKind) (s : Nat) (D : Disk) : Bool :=
  (program t b).all (fun st => !st.guards.any (fun g => (D (g.file s)).isSome) ||
    st.outputs.flatten.all (fun r => !decide (r ∈ t.reads b) || ((D (r.file s)).bind id).isSome)) &&
  (!(D (FileRef.file s (.subPsiFirst, some .ints))).isSome || (D (FileRef.file s (.subPsiLast, some .ints))).isSome)

theorem mendableCheck_ok {t : IndexType} {b : BvKind} {s : Nat} {D : Disk} (h : mendableCheck t b s D = true) : MendableFor t b s D := by
  unfold mendableCheck at h
  rw [Bool.and_eq_true, List.all_eq_true] at h
  refine ⟨fun st hst g hg he r hr hN => ?_, fun he => ?_⟩
  · have := h.1 st hst
    rw [Bool.or_eq_true, Bool.not_eq_true', List.any_eq_false] at this
    rcases this with this | this
    · exact absurd he (this g hg)
    · have := List.all_eq_true.1 this r hr
      rw [Bool.or_eq_true, Bool.not_eq_true', decide_eq_false_iff_not] at this
      obtain ⟨x, hx⟩ := Option.isSome_iff_exists.1 (this.resolve_left (fun k => k hN))
      obtain ⟨c, hc, hcx⟩ := Option.bind_eq_some_iff.1 hx
      cases hcx
      exact ⟨x, hc⟩
  · have := h.2
    rw [Bool.or_eq_true, Bool.not_eq_true'] at this
    rcases this with this | this
    · rw [he] at this; cases this
    · exact this

-- a crash while a file of the construction of SRCSAValidArea is half written, the select support of the marks of psi runs, which nothing
-- reads: its construction and that of SrCSA, started again, give the indexes
example : ∃ D, D = Disk.empty.applyAll ((constructEvents exBytes .psiValidArea .sd 2 (Process.fresh Disk.empty)).take 31) ∧
    (D (FileRef.file 2 (.psiLast, some .sdSelect))) = some none ∧ MendableFor .psiValidArea .sd 2 D ∧ MendableFor .srCSA .sd 3 D := by
  refine ⟨_, rfl, ?_, mendableCheck_ok (by decide +kernel), mendableCheck_ok (by decide +kernel)⟩
  have : (match (Disk.empty.applyAll ((constructEvents exBytes .psiValidArea .sd 2 (Process.fresh Disk.empty)).take 31)) (FileRef.file 2 (.psiLast, some .sdSelect)) with
    | some none => true
    | _ => false) = true := by decide +kernel
  split at this
  · assumption
  · cases this

-- violation 3 for the example text: the areas are not empty, and without them Locate fails
example : (partsOf .psiValidArea (exBytes ++ [0]) (suffixArray (exBytes ++ [0])) 2).map (·.validAreas) = some [1] ∧
    resumedLocate .psiValidArea .sd 2 60 [2] = none ∧ resumedLocate .psiValidMark .sd 2 60 [2] = some [7, 9, 4, 1] ∧
    (indexFromBytes .psiValidArea exBytes 2).bind (·.locate [2]) = some [7, 9, 4, 1] := by decide +kernel

end Sri

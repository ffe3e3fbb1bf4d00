import Verif.Proofs.LostOrder
import Verif.Props.Crash
/-! # A construction whose file of the sorted indices could not be written -/
namespace Sri
set_option autoImplicit false

section
variable {T sa : List Nat} {v : BaseVals T sa} {w : ∀ s, RateVals v s} {bytes : List Nat}

/-- the file -/
def orderRef (t : IndexType) : FileRef := (orderFile t, none)

theorem pre_names (t : IndexType) (ht : Lossy t) : (∀ r ∈ outputsOf (orderPre t), r.1 ∉ lostNames t) ∧ (∀ r ∈ outputsOf (orderPre t), r ≠ orderRef t) ∧
    PsiPaired (outputsOf (orderPre t)) ∧ (orderRef t).1 ∈ lostNames t ∧ orderRef t ≠ (.subPsiIdx, some .ints) ∧ orderRef t ≠ (.subPsiIdx, none) ∧
    orderSrc t ∈ outputsOf (orderPre t) ∧ orderSrc t ≠ (.subPsiIdx, none) := by
  unfold PsiPaired
  rcases ht with rfl | rfl | rfl | rfl <;> decide +kernel

theorem post_shapes (t : IndexType) (ht : Lossy t) (b : BvKind) : ∀ x ∈ (orderPost t b).map CacheStep.shape,
    (∀ g ∈ x.1, g ∉ outputsOf (orderPre t) ∧ g ≠ orderRef t) ∧ ∀ r ∈ x.2, r ≠ orderRef t := by
  rcases ht with rfl | rfl | rfl | rfl <;> cases b <;> decide +kernel

/-- load_from_cache of integers -/
def CacheRead.readsInts : CacheRead → Bool
  | .load _ .ints => true
  | _ => false

theorem post_blind (t : IndexType) (ht : Lossy t) (b : BvKind) : ∀ st ∈ orderPost t b, Blind (orderRef t) st := by
  intro st hst
  obtain ⟨h1, h2⟩ := post_shapes t ht b st.shape (List.mem_map.2 ⟨st, hst, rfl⟩)
  refine ⟨fun h => (h1 _ h).2 rfl, fun h => h2 _ h rfl, ?_, ?_⟩
  · have key : ∀ l ∈ (orderPost t b).map (·.inputs), ∀ q ∈ l, q.ref = orderRef t → q.readsInts = true := by
      rcases ht with rfl | rfl | rfl | rfl <;> cases b <;> decide +kernel
    intro q hq h
    have := key _ (List.mem_map.2 ⟨st, hst, rfl⟩) q hq h
    unfold CacheRead.readsInts at this
    split at this
    · exact ⟨_, rfl⟩
    · cases this
  · have key : ∀ l ∈ (orderPost t b).map (·.aliases), ∀ q ∈ l, q = ((.subPsiIdx, none), (.subPsiIdx, some .ints)) := by
      rcases ht with rfl | rfl | rfl | rfl <;> cases b <;> decide +kernel
    exact fun q hq => key _ (List.mem_map.2 ⟨st, hst, rfl⟩) q hq

/-- the one file that cannot be written -/
def onlyFile (f : File) : File → Bool := fun g => decide (g = f)

theorem writable_of {s : Nat} {r₀ : FileRef} {st : CacheStep} (h1 : ∀ r ∈ st.outputs.flatten, r ≠ r₀) (h2 : ∀ q ∈ st.aliases, q.2 ≠ r₀) :
    Writable (onlyFile (r₀.file s)) s st :=
  ⟨fun r hr => decide_eq_false (fun e => h1 r hr (file_inj e).1), fun q hq => decide_eq_false (fun e => h2 q hq (file_inj e).1)⟩

theorem pre_aliases (t : IndexType) (ht : Lossy t) : ∀ l ∈ (orderPre t).map (·.aliases), l = [] := by
  rcases ht with rfl | rfl | rfl | rfl <;> decide +kernel

theorem ideal_sub_alias (lost : List FileName) (s : Nat) :
    blanked lost (ideal v w) s (.subPsiIdx, some .ints) = blanked lost (ideal v w) s (.subPsiIdx, none) := rfl

/-- the steps after, on a file of no integers -/
theorem post_run {t : IndexType} (ht : Lossy t) (b : BvKind) (s : Nat) {P : Process} (hP : Sound (blanked (lostNames t) (ideal v w)) P)
    (hA : ∀ r ∈ outputsOf (orderPre t) ++ [orderRef t], (P.disk (r.file s)).isSome = true)
    (ho : ∀ f, (P.disk f).isSome = true → ∃ r ∈ outputsOf (orderPre t) ++ [orderRef t], r.file s = f) :
    ∃ es P', runSteps bytes s (orderPost t b) P = (es, some P') ∧ Ran (blanked (lostNames t) (ideal v w)) s P (outputsOf (orderPost t b)) es P' := by
  have hI : RateFree (blanked (lostNames t) (ideal v w)) := blanked_rateFree (ideal_rateFree v w)
  have hG : ∀ st ∈ orderPost t b, GuardsOK s P.disk st := by
    intro st hst g hg he
    obtain ⟨h1, -⟩ := post_shapes t ht b st.shape (List.mem_map.2 ⟨st, hst, rfl⟩)
    obtain ⟨r, hr, e⟩ := ho _ he
    obtain ⟨rfl, -⟩ := file_inj e
    rcases List.mem_append.1 hr with hr | hr
    · exact absurd hr (h1 _ hg).1
    · exact absurd (List.mem_singleton.1 hr) (h1 _ hg).2
  have hst := blank_steps (v := v) (w := w) (bytes := bytes) (s := s) ht b
  have plain : checkSteps (outputsOf (orderPre t) ++ [orderRef t]) (orderPost t b) = true → ∃ es P',
      runSteps bytes s (orderPost t b) P = (es, some P') ∧ Ran (blanked (lostNames t) (ideal v w)) s P (outputsOf (orderPost t b)) es P' :=
    fun hc => run_ok hI _ _ P hst hc hP hA hG
  rcases ht with rfl | rfl | rfl | rfl
  · exact plain (by cases b <;> decide +kernel)
  · exact plain (by cases b <;> decide +kernel)
  · exact plain (by cases b <;> decide +kernel)
  · have m1 : Steps.samplesPsi ∈ orderPost .srCSAWithPsiRun b := List.mem_cons_self
    have m2 : Steps.marksPsi ∈ orderPost .srCSAWithPsiRun b := List.mem_cons_of_mem _ List.mem_cons_self
    have m3 : ∀ st ∈ psiPost b, st ∈ orderPost .srCSAWithPsiRun b := fun st h => List.mem_append_right _ h
    have hno : ∀ r : FileRef, r ∉ outputsOf (orderPre .srCSAWithPsiRun) ++ [orderRef .srCSAWithPsiRun] → ¬ (P.disk (r.file s)).isSome = true := by
      intro r hr he
      obtain ⟨r', hr', e⟩ := ho _ he
      obtain ⟨rfl, -⟩ := file_inj e
      exact hr hr'
    obtain ⟨es1, P1, r1, R1⟩ := mid_run hI (ideal_sub_alias _ s) (hst _ m1) (hst _ m2) hP (fun r hr => hA r (by
        have key : ∀ r ∈ [((.psiFirst, some .ints) : FileRef), (.psiFirstAsc, none), (.psiLink, some .ints), (.psiLast, some .ints)],
          r ∈ outputsOf (orderPre .srCSAWithPsiRun) ++ [orderRef .srCSAWithPsiRun] := by decide +kernel
        exact key r hr)) (hG _ m1) (hG _ m2) (fun he => absurd he (hno _ (by decide +kernel)))
    have hm3 : ∀ x ∈ (psiPost b).map CacheStep.shape, ∀ g ∈ x.1, g ∈ outputsOf [Steps.samplesPsi, Steps.marksPsi] →
        ∀ r ∈ x.2, r ∈ outputsOf [Steps.samplesPsi, Steps.marksPsi] := by cases b <;> decide +kernel
    obtain ⟨es2, P2, r2, R2⟩ := run_ok hI (psiPost b)
      (outputsOf (orderPre .srCSAWithPsiRun) ++ [orderRef .srCSAWithPsiRun] ++ outputsOf [Steps.samplesPsi, Steps.marksPsi]) P1
      (fun st h => hst st (m3 st h)) (by cases b <;> decide +kernel) R1.sound (fun r hr => by
        rcases List.mem_append.1 hr with hr | hr
        · exact R1.keeps (hA r hr)
        · exact R1.all r hr)
      (fun st h => guards_after R1 (hG st (m3 st h)) (hm3 _ (List.mem_map.2 ⟨st, h, rfl⟩)))
    refine ⟨es1 ++ es2, P2, ?_, ?_⟩
    · change runSteps bytes s ([Steps.samplesPsi, Steps.marksPsi] ++ psiPost b) P = _
      rw [runSteps_append bytes s _ _ P r1, r2]
    · have : outputsOf (orderPost .srCSAWithPsiRun b) = outputsOf [Steps.samplesPsi, Steps.marksPsi] ++ outputsOf (psiPost b) := by
        change outputsOf ([Steps.samplesPsi, Steps.marksPsi] ++ psiPost b) = _
        unfold outputsOf; rw [List.flatMap_append]
      rw [this]
      exact R1.trans R2

/-- what such a construction leaves -/
structure Lost (v : BaseVals T sa) (w : ∀ s, RateVals v s) (t : IndexType) (b : BvKind) (s : Nat) (P : Process) : Prop where
  map : MapOK P.fileMap
  missing : P.disk ((orderRef t).file s) = none
  files : ∀ r ∈ outputsOf (orderPre t) ++ outputsOf (orderPost t b), ∃ x, P.disk (r.file s) = some (some x) ∧
    blanked (lostNames t) (ideal v w) s r = some x

theorem onlyFile_marks {t : IndexType} (ht : Lossy t) (s : Nat) : onlyFile ((orderRef t).file s) (FileRef.file s (.subPsiLast, some .ints)) = false := by
  refine decide_eq_false (fun e => ?_)
  have := (file_inj e).1
  rcases ht with rfl | rfl | rfl | rfl <;> exact absurd this (by decide)

theorem lost_run (h : Input bytes T sa) {t : IndexType} (ht : Lossy t) (b : BvKind) (s : Nat) :
    ∃ P, constructInF (onlyFile ((orderRef t).file s)) bytes t b s (Process.fresh Disk.empty) = some P ∧ Lost v w t b s P := by
  obtain ⟨n1, n2, n3, n4, n5, n6, n7, n8⟩ := pre_names t ht
  obtain ⟨es1, P1, r1, R1⟩ := prefix_run (v := v) (w := w) h t b s (order_program ht b) n3 (sound_empty _) cleanDisk_empty
  have ho1 : ∀ f, (P1.disk f).isSome = true → ∃ r ∈ outputsOf (orderPre t), r.file s = f := by
    intro f hf
    rcases R1.only f hf with h' | h'
    · cases h'
    · exact h'
  have hno : P1.disk ((orderRef t).file s) = none := by
    cases hx : P1.disk ((orderRef t).file s) with
    | none => rfl
    | some c =>
      obtain ⟨r, hr, e⟩ := ho1 _ (by rw [hx]; rfl)
      exact absurd (file_inj e).1 (n2 r hr)
  -- the step that cannot store
  have hok : StepOK (ideal v w) bytes s (Steps.sorted (orderFile t) (orderSrc t)) :=
    ok_program h t b _ (by rw [order_program ht b]; simp)
  obtain ⟨es2, r2, -⟩ := step_run (ideal_rateFree v w) hok R1.sound (fun q hq => (by cases hq)) (fun q hq => by
    have : q = .load (orderSrc t) .ints := by simpa [Steps.sorted] using hq
    subst this
    exact ⟨_, R1.sound.map.fileName n8, R1.all _ n7, rfl⟩)
  -- what follows
  have hP1 : Sound (blanked (lostNames t) (ideal v w)) (P1.put ((orderRef t).file s)) := by
    refine ⟨?_, ?_, R1.sound.map⟩
    · intro s' r x hx
      change (P1.disk.put _) _ = _ at hx
      by_cases hf : r.file s' = (orderRef t).file s
      · rw [hf, put_self] at hx
        cases hx
        have hr := (file_inj hf).1
        subst hr
        unfold blanked
        rw [if_pos n4]
        rcases ht with rfl | rfl | rfl | rfl <;> rfl
      · rw [put_other _ hf] at hx
        obtain ⟨r', hr', e⟩ := ho1 _ (by rw [hx]; rfl)
        have hr := (file_inj e).1
        subst hr
        unfold blanked
        rw [if_neg (n1 _ hr')]
        exact R1.sound.right _ _ _ hx
    · intro f hf
      change (P1.disk.put _) _ = _ at hf
      by_cases hg : f = (orderRef t).file s
      · rw [hg, put_self] at hf; cases hf
      · rw [put_other _ hg] at hf; exact R1.sound.whole f hf
  obtain ⟨es3, Q', r3, R3⟩ := post_run (bytes := bytes) ht b s hP1 (fun r hr => by
      change ((P1.disk.put _) _).isSome = true
      by_cases hg : r.file s = (orderRef t).file s
      · rw [hg, put_self]; rfl
      · rw [put_other _ hg]
        rcases List.mem_append.1 hr with hr | hr
        · exact R1.all r hr
        · rw [List.mem_singleton] at hr
          subst hr
          exact absurd rfl hg) (fun f hf => by
      change ((P1.disk.put _) _).isSome = true at hf
      by_cases hg : f = (orderRef t).file s
      · exact ⟨_, List.mem_append_right _ List.mem_cons_self, hg.symm⟩
      · rw [put_other _ hg] at hf
        obtain ⟨r, hr, e⟩ := ho1 f hf
        exact ⟨r, List.mem_append_left _ hr, e⟩)
  obtain ⟨Q, r4, rfl, hQm, hQd⟩ := runSteps_put n5 n6 _ P1 (post_blind t ht b) R1.sound.map hno _ _ r3
  refine ⟨Q, ?_, hQm, hQd, ?_⟩
  · rw [constructInF_steps (onlyFile_marks ht s), order_program ht b, runStepsF_append, runStepsF_eq _ _ (fun st hst => writable_of
        (fun r hr => n2 r (List.mem_flatMap.2 ⟨st, hst, hr⟩))
        (fun q hq => by
          rw [pre_aliases t ht _ (List.mem_map.2 ⟨st, hst, rfl⟩)] at hq
          cases hq)), r1]
    rw [Option.bind_some, runStepsF_append]
    have hskip : runStepsF (onlyFile ((orderRef t).file s)) bytes s [Steps.sorted (orderFile t) (orderSrc t)] P1 = some P1 := by
      rw [runStepsF_cons, if_neg]
      · have hF : ∀ e ∈ es2, onlyFile ((orderRef t).file s) e.target = true := by
          intro e he
          obtain ⟨r, hr, e'⟩ := run_file r2 he
          have : r = orderRef t := by simpa [Steps.sorted, orderRef] using hr
          subst this
          rw [target_eq, ← e']
          exact decide_eq_true rfl
        have hfil : es2.filter (fun e => !onlyFile ((orderRef t).file s) e.target) = [] := by
          rw [List.filter_eq_nil_iff]
          intro e he
          rw [hF e he]
          simp
        have hbuf : (orderRef t).buffered = false := by rcases ht with rfl | rfl | rfl | rfl <;> rfl
        have has : ((Steps.sorted (orderFile t) (orderSrc t)).outputs.flatten.all
            (fun r => !(r.buffered && onlyFile ((orderRef t).file s) (r.file s)))) = true := by
          simp only [Steps.sorted, List.flatten_cons, List.flatten_nil, List.append_nil, List.all_cons, List.all_nil, Bool.and_true]
          change (!((orderRef t).buffered && _)) = true
          rw [hbuf]; rfl
        unfold CacheStep.runF
        simp only [r2, Option.bind_eq_bind, Option.bind_some, has, assertC, if_true, Option.pure_def, hfil]
        rfl
      · simp only [Steps.sorted, List.any_cons, List.any_nil, Bool.or_false]
        change ¬ P1.has ((orderRef t).file s) = true
        rw [has_eq R1.sound.map n6, hno]; simp
    rw [hskip, Option.bind_some, runStepsF_eq _ _ (fun st hst => writable_of
        (fun r hr e => by
          subst e
          exact (post_blind t ht b st hst).outputs hr)
        (fun q hq e => by
          rw [(post_blind t ht b st hst).aliases q hq] at e
          exact n5 e.symm)), r4]
  · intro r hr
    have hne : r.file s ≠ (orderRef t).file s := by
      intro e
      have := (file_inj e).1
      subst this
      rcases List.mem_append.1 hr with hr | hr
      · exact n2 _ hr rfl
      · obtain ⟨st, hst, hr⟩ := List.mem_flatMap.1 hr
        exact (post_blind t ht b st hst).outputs hr
    have hsome : ((Q.put ((orderRef t).file s)).disk (r.file s)).isSome = true := by
      rcases List.mem_append.1 hr with hr | hr
      · refine R3.keeps ?_
        change ((P1.disk.put _) _).isSome = true
        rw [put_other _ hne]
        exact R1.all r hr
      · exact R3.all r hr
    obtain ⟨c, hc⟩ := Option.isSome_iff_exists.1 hsome
    cases c with
    | none => exact absurd hc (R3.sound.whole _)
    | some x =>
      refine ⟨x, ?_, R3.sound.right s r x hc⟩
      change (Q.disk.put _) _ = _ at hc
      rwa [put_other _ hne] at hc

/-! ## The next construction -/

/-- steps that find their files do nothing -/
theorem runSteps_skip (s : Nat) (P : Process) : ∀ (steps : List CacheStep), (∀ st ∈ steps, ∃ g ∈ st.guards, P.has (g.file s) = true) →
    runSteps bytes s steps P = ([], some P)
  | [], _ => rfl
  | st :: rest, h => by
    obtain ⟨g, hg, he⟩ := h st List.mem_cons_self
    rw [runSteps_cons, if_pos (List.any_eq_true.2 ⟨g, hg, he⟩)]
    exact runSteps_skip s P rest (fun st' h' => h st' (List.mem_cons_of_mem _ h'))

theorem found_guards (t : IndexType) (ht : Lossy t) (b : BvKind) : ∀ x ∈ (orderPre t ++ orderPost t b).map CacheStep.shape,
    ∃ g ∈ x.1, g ≠ (.subPsiIdx, none) ∧ g ∈ outputsOf (orderPre t) ++ outputsOf (orderPost t b) := by
  rcases ht with rfl | rfl | rfl | rfl <;> cases b <;> decide +kernel

/-- on the files of such a construction another one writes the sorted indices, and nothing else -/
theorem lost_again (h : Input bytes T sa) {t : IndexType} (ht : Lossy t) (b : BvKind) (s : Nat) {P : Process} (hP : Lost v w t b s P) :
    ∃ P', constructIn bytes t b s (Process.fresh P.disk) = some P' ∧ MapOK P'.fileMap ∧
      ∀ f, f ≠ (orderRef t).file s → P'.disk f = P.disk f := by
  obtain ⟨n1, n2, n3, n4, n5, n6, n7, n8⟩ := pre_names t ht
  have hm : MapOK (Process.fresh P.disk).fileMap := fun _ _ h => by cases h
  have key : ∀ Q : Process, MapOK Q.fileMap → (∀ r ∈ outputsOf (orderPre t) ++ outputsOf (orderPost t b), (Q.disk (r.file s)).isSome = true) →
      ∀ st ∈ orderPre t ++ orderPost t b, ∃ g ∈ st.guards, Q.has (g.file s) = true := by
    intro Q hQ hd st hst
    obtain ⟨g, hg, hne, ho⟩ := found_guards t ht b st.shape (List.mem_map.2 ⟨st, hst, rfl⟩)
    exact ⟨g, hg, by rw [has_eq hQ hne]; exact hd g ho⟩
  have hd : ∀ r ∈ outputsOf (orderPre t) ++ outputsOf (orderPost t b), (P.disk (r.file s)).isSome = true := by
    intro r hr
    obtain ⟨x, hx, -⟩ := hP.files r hr
    rw [hx]; rfl
  have r1 : runSteps bytes s (orderPre t) (Process.fresh P.disk) = ([], some (Process.fresh P.disk)) :=
    runSteps_skip s _ _ (fun st hst => key _ hm hd st (List.mem_append_left _ hst))
  -- the sorted indices
  have hok : StepOK (ideal v w) bytes s (Steps.sorted (orderFile t) (orderSrc t)) :=
    ok_program h t b _ (by rw [order_program ht b]; simp)
  obtain ⟨es, r2⟩ : ∃ es, (Steps.sorted (orderFile t) (orderSrc t)).run bytes s (Process.fresh P.disk) = some es := by
    obtain ⟨xs, ys, hx, hc, -⟩ := hok
    refine ⟨storeEvents s (Steps.sorted (orderFile t) (orderSrc t)).outputs ys, ?_⟩
    · unfold CacheStep.run
      rw [mapM_congr' (g := fun q => ideal v w s q.ref) (fun q hq => ?_), hx]
      · simp only [Option.bind_eq_bind, Option.bind_some, Option.pure_def, hc]
      · have : q = .load (orderSrc t) .ints := by simpa [Steps.sorted] using hq
        subst this
        obtain ⟨x, h1, h2⟩ := hP.files _ (List.mem_append_left _ n7)
        unfold blanked at h2
        rw [if_neg (n1 _ n7)] at h2
        simp only [CacheRead.run, CacheRead.ref]
        rw [hm.fileName n8]
        change (match P.disk _ with
          | none => Item.new .ints
          | some c => c) = _
        rw [h1, h2]
  have hes : ∀ e ∈ es, e.file = (orderRef t).file s := by
    intro e he
    obtain ⟨r, hr, e'⟩ := run_file r2 he
    have : r = orderRef t := by simpa [Steps.sorted, orderRef] using hr
    subst this
    exact e'.symm
  have hkeep : ∀ f, f ≠ (orderRef t).file s → (P.disk.applyAll es) f = P.disk f := fun f hf =>
    (applyAll_put f es P.disk (fun e he e' => hf (e'.symm.trans (hes e he)))).2
  obtain ⟨Q, hQ⟩ : ∃ Q, Q = (Steps.sorted (orderFile t) (orderSrc t)).after s es (Process.fresh P.disk) := ⟨_, rfl⟩
  have hQm : MapOK Q.fileMap := by rw [hQ]; exact hm
  have hQd : ∀ f, f ≠ (orderRef t).file s → Q.disk f = P.disk f := by rw [hQ]; exact hkeep
  have r3 : runSteps bytes s [Steps.sorted (orderFile t) (orderSrc t)] (Process.fresh P.disk) = (es, some Q) := by
    rw [runSteps_cons, if_neg, r2]
    · simp only [runSteps, List.append_nil, ← hQ]
    · simp only [Steps.sorted, List.any_cons, List.any_nil, Bool.or_false]
      change ¬ (Process.fresh P.disk).has ((orderRef t).file s) = true
      rw [has_eq hm n6]
      change ¬ (P.disk _).isSome = true
      rw [hP.missing]; simp
  have r4 : runSteps bytes s (orderPost t b) Q = ([], some Q) := by
    refine runSteps_skip s _ _ (fun st hst => key _ hQm (fun r hr => ?_) st (List.mem_append_right _ hst))
    rw [hQd]
    · exact hd r hr
    · intro e
      have := (file_inj e).1
      subst this
      obtain ⟨x, hx, -⟩ := hP.files _ hr
      rw [hP.missing] at hx
      cases hx
  refine ⟨Q, ?_, hQm, hQd⟩
  unfold constructIn
  rw [order_program ht b, runSteps_append bytes s _ _ _ r1, runSteps_append bytes s _ _ _ r3, r4]

/-! ## The index that is loaded -/

/-- the items of the index, without samples and marks -/
def blankParts (p : Parts) : Parts :=
  { p with samples := [], marks := List.replicate p.marks.length false, markToSample := [],
           samplesIdx := List.replicate p.samplesIdx.length false }

theorem blank_item {t : IndexType} (ht : Lossy t) (b : BvKind) (s : Nat) : ∀ a ∈ accesses t b,
    blanked (lostNames t) (ideal v w) s (accessRef t a) =
      some (itemOf b (blankParts (partsVals v w t s)) ⟨a.slot, a.part, if a.part = .self then a.ty else a.sty⟩).unbound := by
  intro a ha
  rcases ht with rfl | rfl | rfl | rfl <;> cases b <;>
    simp only [accesses, loadAllItems, constructAccesses, IndexType.sampled, IndexType.counted, IndexType.withMarks, IndexType.withAreas,
      IndexType.overPositions, if_true, Bool.false_eq_true, if_false, List.append_nil, List.cons_append, List.nil_append, List.mem_cons,
      List.not_mem_nil, or_false] at ha <;>
    (repeat' rcases ha with rfl | ha) <;> rfl

theorem access_lost {t : IndexType} (ht : Lossy t) (b : BvKind) : ∀ a ∈ accesses t b,
    accessRef t a ∈ outputsOf (orderPre t) ++ outputsOf (orderPost t b) := by
  rcases ht with rfl | rfl | rfl | rfl <;> cases b <;> decide +kernel

/-- what is loaded from a cache with those files -/
theorem lost_load {α : Type} (K : Codec α) {t : IndexType} (ht : Lossy t) (b : BvKind) (s : Nat) {P : Process} (hm : MapOK P.fileMap)
    (hP : ∀ r ∈ outputsOf (orderPre t) ++ outputsOf (orderPost t b), ∃ x, P.disk (r.file s) = some (some x) ∧
      blanked (lostNames t) (ideal v w) s r = some x) :
    loadIn K t b s P = (blankParts (partsVals v w t s)).assemble t s := by
  obtain ⟨hwf, -⟩ := partsOf_ok (partsOf_vals (v := v) (w := w) t s)
  have hsam : t.sampled = true := by rcases ht with rfl | rfl | rfl | rfl <;> rfl
  have hwf' : (blankParts (partsVals v w t s)).WF t :=
    ⟨hwf.nav, fun h => (by rw [hsam] at h; cases h), hwf.cum, hwf.vm, hwf.va⟩
  have hC : ∀ f ∈ indexFiles t b s (blankParts (partsVals v w t s)), P.cache f.1.1 f.1.2 = some f.2 := by
    intro f hf
    obtain ⟨a, ha, rfl⟩ := List.mem_map.1 hf
    dsimp only
    unfold Process.cache
    rw [access_file ha, hm.fileName (access_named t b a ha)]
    obtain ⟨x, h1, h2⟩ := hP _ (access_lost ht b a ha)
    rw [h1, Option.bind_some, id, ← h2, blank_item ht b s a ha]
  have hH := holds_of_files hC
  have aux : ∀ J : Object, J.type = t → J.bv = b → J.pre = buildPrefix t s → J.rate = s →
      (J.loadCache K [] P.cache).bind (fun x => x.1.queries x.2) = (blankParts (partsVals v w t s)).assemble t s := by
    intro J h1 h2 h3 h4
    rw [← h3] at hH
    subst h1; subst h2
    obtain ⟨S', e1, -, e3, -⟩ := loadCache_holds (K := K) (I := J) hwf' hH (S := []) (fun _ _ => Or.inl rfl)
    rw [e1, Option.bind_some]
    refine (queries_full (I := { J with keys := keyOf J.type J.pre }) (S := S') hwf' rfl e3).trans ?_
    dsimp only
    rw [h4]
  have := aux (Object.fresh t b (rateArg t s)) (fresh_type ..) (fresh_bv ..) (fresh_pre ..) (by simp [rateArg, hsam, Object.fresh])
  rw [← this]
  rfl

end

/-! ## Its answers -/

section
variable {ρ ν δ : Type}

theorem countLoop_congr {δ' : Type} (F : Functors ρ ν δ) (G : Functors ρ ν δ') (h1 : F.lf = G.lf) (h2 : F.toRange = G.toRange)
    (h3 : F.getSymbol = G.getSymbol) (h4 : F.isEmpty = G.isEmpty) : ∀ (l : List Nat) (r : ρ), F.countLoop l r = G.countLoop l r
  | [], _ => rfl
  | c :: l, r => by
    unfold Functors.countLoop
    rw [h1, h2, h3, h4]
    congr 2
    funext next
    exact countLoop_congr F G h1 h2 h3 h4 l _

theorem locateLoop_counts (F : Functors ρ ν δ) : ∀ (l : List Nat) (r : ρ) (d : δ) (r' : ρ) (d' : δ), F.locateLoop l r d = some (r', d') →
    F.countLoop l r = some r'
  | [], r, d, r', d', h => by cases h; rfl
  | c :: l, r, d, r', d', h => by
    unfold Functors.locateLoop at h
    unfold Functors.countLoop
    split
    · rename_i hx
      rw [if_pos hx] at h
      cases h; rfl
    · rename_i hx
      rw [if_neg hx] at h
      simp only [Option.bind_eq_bind, Option.bind_eq_some_iff] at h ⊢
      obtain ⟨next, h1, data, -, h2⟩ := h
      exact ⟨next, h1, locateLoop_counts F l _ _ _ _ h2⟩

/-- without a toehold Locate answers only when the range is empty -/
theorem locate_blank (F : Functors ρ ν δ) (h : ∀ r d, F.computeAll r d = none) {X l : List Nat} (hl : F.locate X = some l) :
    ∃ r, F.countLoop X.reverse (F.fullRange F.bwtSize) = some r ∧ F.isEmpty r = true := by
  unfold Functors.locate at hl
  rw [Option.bind_eq_bind] at hl
  obtain ⟨⟨r, d⟩, h1, h2⟩ := Option.bind_eq_some_iff.1 hl
  refine ⟨r, locateLoop_counts F _ _ _ _ _ h1, ?_⟩
  dsimp only at h2
  cases he : F.isEmpty r with
  | true => rfl
  | false =>
    rw [he, if_neg (by simp), h] at h2
    cases h2

theorem findSample_blank {β : Type} {g : β → Option (Option Nat)} {nav : β → Option β} (h : ∀ d x, g d ≠ some (some x)) :
    ∀ (fuel : Nat) (d : β), findSample g nav fuel d = none
  | 0, _ => rfl
  | fuel + 1, d => by
    unfold findSample
    cases hg : g d with
    | none => rfl
    | some y =>
      cases y with
      | some x => exact absurd hg (h d x)
      | none =>
        simp only [Option.bind_eq_bind, Option.bind_some]
        cases nav d with
        | none => rfl
        | some d' =>
          rw [Option.bind_some, findSample_blank h fuel d']; rfl

theorem blank_bit {n i : Nat} {b : Bool} (h : (List.replicate n false)[i]? = some b) : b = false := by
  rw [List.getElem?_replicate] at h
  split at h
  · exact (Option.some.inj h).symm
  · cases h

theorem computeAll_blank {φ : ρ → Nat → Option (List Nat)} {th : δ → Option Nat} {up : ρ → Option ρ} (h : ∀ d, th d = none) (r : ρ) (d : δ) :
    computeAllValues φ th up r d = none := by
  unfold computeAllValues
  rw [h]; rfl

theorem srIndex_blank (I : SrIndex) (n : Nat) (h : I.samplesIdx = List.replicate n false) (r : Range) (d : StepData RunDataExt) :
    I.functors.computeAll r d = none := by
  refine computeAll_blank (fun d => ?_) r d
  have hg : ∀ d x, I.getSampleData d ≠ some (some x) := by
    intro d x
    unfold SrIndex.getSampleData SrIndex.getSample
    split
    · rw [h]
      cases hb : (List.replicate n false)[d.lastRunRnk]? with
      | none => simp
      | some b =>
        rw [blank_bit hb]
        simp
    · simp
  unfold SrIndex.toehold computeToehold SrIndex.saValueOfRun saValueBackward
  simp only [findSample_blank hg]
  cases I.base.bwtRle.selectOnRuns d.run.lastRunRnk d.run.c <;> rfl

theorem srCSA_blank (I : SrCSA) (O : ForwOps) (hg : ∀ d x, O.getSampleData d ≠ some (some x)) (φ : Range → Nat → Option (List Nat)) (r : Range)
    (d : StepData FData) : (I.functorsWith O φ).computeAll r d = none := by
  refine computeAll_blank (fun d => ?_) r d
  unfold computeToehold SrCSA.saValueOfRun saValueForward
  rw [findSample_blank hg]; rfl

theorem posOps_blank (I : SrCSA) (n : Nat) (h : I.samplesIdx = List.replicate n false) : ∀ d x, I.posOps.getSampleData d ≠ some (some x) := by
  intro d x
  change I.getSamplePos d.pos ≠ _
  unfold SrCSA.getSamplePos
  rw [h]
  cases hb : (List.replicate n false)[d.pos]? with
  | none => simp
  | some b =>
    rw [blank_bit hb]
    simp

theorem slimOps_blank (I : SrCSA) (n : Nat) (h : I.samplesIdx = List.replicate n false) : ∀ d x, I.slimOps.getSampleData d ≠ some (some x) := by
  intro d x
  change I.getSampleIdx d.c d.rank d.isRunStart ≠ _
  unfold SrCSA.getSampleIdx
  split
  · simp
  · rw [h]
    cases (if 0 < d.c then I.cumRuns[d.c - 1]? else some 0) with
    | none => simp
    | some cc =>
      rw [Option.bind_eq_bind, Option.bind_some]
      cases hb : (List.replicate n false)[cc + d.rank]? with
      | none => simp
      | some b =>
        rw [blank_bit hb]
        simp

end

theorem bounds_blank {ρ ν δ : Type} (F : Functors ρ ν δ) (h1 : ∀ r d, F.computeAll r d = none)
    (h2 : ∀ r, F.isEmpty r = !decide ((F.bounds r).1 < (F.bounds r).2)) (X l : List Nat) (i j : Nat) (hl : F.locate X = some l)
    (hc : F.count X = some (i, j)) : j ≤ i := by
  obtain ⟨r, h3, h4⟩ := locate_blank F h1 hl
  unfold Functors.count at hc
  rw [h3, Option.bind_eq_bind, Option.bind_some, Option.pure_def, Option.some.injEq] at hc
  rw [h2 r, hc] at h4
  simpa using h4

theorem counts_alike {ρ ν δ : Type} (F G : Functors ρ ν δ) (h1 : F.lf = G.lf) (h2 : F.toRange = G.toRange) (h3 : F.getSymbol = G.getSymbol)
    (h4 : F.isEmpty = G.isEmpty) (h5 : F.bwtSize = G.bwtSize) (h6 : F.fullRange = G.fullRange) (h7 : F.bounds = G.bounds) : F.count = G.count := by
  funext X
  unfold Functors.count
  rw [countLoop_congr F G h1 h2 h3 h4, h5, h6, h7]

theorem rIndex_lf_alike (I : RIndex) (a b : List Nat) (m : List Bool) : (⟨I.alphabet, I.bwtRle, a, m, b, I.n⟩ : RIndex).lf = I.lf := by
  funext r c
  unfold RIndex.lf
  rfl

/- every side is written out: comparing the functors as a whole would unfold all of Locate -/
theorem srIndex_alike (I : SrIndex) (a b : List Nat) (m x : List Bool) :
    (⟨⟨I.base.alphabet, I.base.bwtRle, a, m, b, I.base.n⟩, x, I.s⟩ : SrIndex).count = I.count := by
  unfold SrIndex.count
  exact counts_alike _ _ (rIndex_lf_alike I.base a b m) (@rfl _ RIndex.toRange) (@rfl _ I.base.alphabet.char2comp)
    (@rfl _ (fun r : Range => !decide (r.start < r.stop))) (@rfl _ I.base.n) (@rfl _ (fun n : Nat => (⟨0, n⟩ : Range)))
    (@rfl _ (fun r : Range => (r.start, r.stop)))

theorem srCSA_alike (I : SrCSA) (a b : List Nat) (m x : List Bool) :
    (⟨⟨⟨I.alphabet, I.psi, I.n⟩, a, m, b⟩, x, I.cumRuns, I.s⟩ : SrCSA).count = I.count := by
  unfold SrCSA.count
  exact counts_alike _ _ (@rfl _ I.lf) (@rfl _ PsiNav.toRange) (@rfl _ I.alphabet.char2comp)
    (@rfl _ (fun r : Range => !decide (r.start < r.stop))) (@rfl _ I.n) (@rfl _ (fun n : Nat => (⟨0, n⟩ : Range)))
    (@rfl _ (fun r : Range => (r.start, r.stop)))

theorem srCSASlim_alike (I : SrCSA) (a b : List Nat) (m x : List Bool) :
    (⟨⟨⟨I.alphabet, I.psi, I.n⟩, a, m, b⟩, x, I.cumRuns, I.s⟩ : SrCSA).countSlim = I.countSlim := by
  unfold SrCSA.countSlim
  exact counts_alike _ _ (@rfl _ I.lf) (@rfl _ PsiNav.toRange) (@rfl _ I.alphabet.char2comp)
    (@rfl _ (fun r : Range => !decide (r.start < r.stop))) (@rfl _ I.n) (@rfl _ (fun n : Nat => (⟨0, n⟩ : Range)))
    (@rfl _ (fun r : Range => (r.start, r.stop)))

theorem srIndex_noLocate (I : SrIndex) (n : Nat) (h : I.samplesIdx = List.replicate n false) :
    ∀ X l i j, I.locate X = some l → I.count X = some (i, j) → j ≤ i := by
  unfold SrIndex.locate SrIndex.count
  exact bounds_blank _ (srIndex_blank _ _ h) (fun _ => rfl)

theorem srCSA_noLocate (I : SrCSA) (n : Nat) (h : I.samplesIdx = List.replicate n false) :
    ∀ X l i j, I.locate X = some l → I.count X = some (i, j) → j ≤ i := by
  unfold SrCSA.locate SrCSA.count
  exact bounds_blank _ (srCSA_blank _ _ (posOps_blank _ _ h) _) (fun _ => rfl)

theorem srCSASlim_noLocate (I : SrCSA) (n : Nat) (h : I.samplesIdx = List.replicate n false) :
    ∀ X l i j, I.locateSlim X = some l → I.countSlim X = some (i, j) → j ≤ i := by
  unfold SrCSA.locateSlim SrCSA.countSlim
  exact bounds_blank _ (srCSA_blank _ _ (slimOps_blank _ _ h) _) (fun _ => rfl)

/-- the index counts as the right one does, and does not locate what occurs -/
theorem blank_answers {t : IndexType} (ht : Lossy t) {p : Parts} {s : Nat} {q : Queries} (hq : p.assemble t s = some q) :
    ∃ q', (blankParts p).assemble t s = some q' ∧ q'.count = q.count ∧
      ∀ X l i j, q'.locate X = some l → q'.count X = some (i, j) → j ≤ i := by
  rcases ht with rfl | rfl | rfl | rfl
  · simp only [Parts.assemble, Option.map_eq_some_iff] at hq
    obtain ⟨I, hI, rfl⟩ := hq
    obtain ⟨I', hI', e1, e2⟩ : ∃ I', (blankParts p).srIndex s = some I' ∧ I'.samplesIdx = List.replicate p.samplesIdx.length false ∧
        I' = ⟨⟨I.base.alphabet, I.base.bwtRle, I'.base.samples, I'.base.marks, I'.base.markToSample, I.base.n⟩, I'.samplesIdx, I.s⟩ := by
      simp only [Parts.srIndex, Parts.rIndex, Option.bind_eq_bind, Option.bind_eq_some_iff, Option.pure_def, Option.some.injEq] at hI
      obtain ⟨J, ⟨n, h1, h2⟩, rfl⟩ := hI
      split at h2
      · rename_i bw hn
        cases h2
        refine ⟨⟨⟨p.alphabet, bw, [], List.replicate p.marks.length false, [], n⟩, List.replicate p.samplesIdx.length false, s⟩, ?_, rfl, rfl⟩
        simp only [Parts.srIndex, Parts.rIndex, blankParts, h1, hn, Option.bind_eq_bind, Option.bind_some, Option.pure_def]
      · cases h2
    refine ⟨⟨I'.count, I'.locate⟩, by simp only [Parts.assemble, hI', Option.map_some], ?_, srIndex_noLocate I' _ e1⟩
    rw [e2]
    exact srIndex_alike ..
  all_goals
    simp only [Parts.assemble, Option.map_eq_some_iff] at hq
    obtain ⟨I, hI, rfl⟩ := hq
    obtain ⟨I', hI', e1, e2⟩ : ∃ I', (blankParts p).srCSA s = some I' ∧ I'.samplesIdx = List.replicate p.samplesIdx.length false ∧
        I' = ⟨⟨⟨I.alphabet, I.psi, I.n⟩, I'.samples, I'.marks, I'.markToSample⟩, I'.samplesIdx, I.cumRuns, I.s⟩ := by
      simp only [Parts.srCSA, Parts.rcsa, Option.bind_eq_bind, Option.bind_eq_some_iff, Option.pure_def, Option.some.injEq] at hI
      obtain ⟨J, ⟨n, h1, h2⟩, rfl⟩ := hI
      split at h2
      · rename_i bw hn
        cases h2
        refine ⟨⟨⟨⟨p.alphabet, bw, n⟩, [], List.replicate p.marks.length false, []⟩, List.replicate p.samplesIdx.length false, p.cumRuns, s⟩, ?_, rfl, rfl⟩
        simp only [Parts.srCSA, Parts.rcsa, blankParts, h1, hn, Option.bind_eq_bind, Option.bind_some, Option.pure_def]
      · cases h2
  · refine ⟨⟨I'.count, I'.locate⟩, by simp only [Parts.assemble, hI', Option.map_some], ?_,
      srCSA_noLocate I' _ e1⟩
    rw [e2]
    exact srCSA_alike ..
  · refine ⟨⟨I'.countSlim, I'.locateSlim⟩, by simp only [Parts.assemble, hI', Option.map_some], ?_,
      srCSASlim_noLocate I' _ e1⟩
    rw [e2]
    exact srCSASlim_alike ..
  · refine ⟨⟨I'.countSlim, I'.locateSlim⟩, by simp only [Parts.assemble, hI', Option.map_some], ?_,
      srCSASlim_noLocate I' _ e1⟩
    rw [e2]
    exact srCSASlim_alike ..

end Sri

import Verif.Proofs.CacheStuck
/-! # Construction over a cache in which a step was interrupted -/
namespace Sri
set_option autoImplicit false

/-- the file is there and was closed -/
def Disk.Complete (D : Disk) (f : File) : Prop := ∃ x, D f = some (some x)

theorem Disk.Complete.exists {D : Disk} {f : File} (h : D.Complete f) : (D f).isSome = true := by
  obtain ⟨x, hx⟩ := h
  rw [hx]; rfl

theorem complete_of {D : Disk} {f : File} (h : (D f).isSome = true) (ht : D f ≠ some none) : D.Complete f := by
  obtain ⟨c, hc⟩ := Option.isSome_iff_exists.1 h
  cases c with
  | none => exact absurd hc ht
  | some x => exact ⟨x, hc⟩

/-- a complete step leaves torn only what was torn before and is none of its files -/
theorem storeEvents_torn (s : Nat) (gs : List (List FileRef)) (xs : List Item) (hl : gs.flatten.length = xs.length) {D : Disk} {f : File}
    (h : (D.applyAll (storeEvents s gs xs)) f = some none) : D f = some none ∧ ∀ r ∈ gs.flatten, FileRef.file s r ≠ f := by
  induction gs generalizing xs D with
  | nil => exact ⟨h, by simp⟩
  | cons g gs ih =>
    rw [List.flatten_cons, List.length_append] at hl
    unfold storeEvents at h
    rw [applyAll_append] at h
    obtain ⟨h0, h1⟩ := ih (xs.drop g.length) (by rw [List.length_drop]; omega) h
    rw [applyAll_append] at h0
    have e : (g.zip (xs.take g.length)).map (fun q => CacheEvent.closed (q.1.file s) q.2)
        = ((g.zip (xs.take g.length)).map (fun q => (q.1.file s, q.2))).map (fun q => CacheEvent.closed q.1 q.2) := by
      rw [List.map_map]; rfl
    rw [e] at h0
    obtain ⟨h2, h3⟩ := applyAll_closed _ h0
    have hng : ∀ r ∈ g, FileRef.file s r ≠ f := by
      rintro r hr rfl
      refine h3 ?_
      obtain ⟨i, hi, rfl⟩ := List.mem_iff_getElem.1 hr
      rw [List.map_map]
      refine List.mem_map.2 ⟨(g[i], xs[i]'(by omega)), ?_, rfl⟩
      refine List.mem_iff_getElem.2 ⟨i, by rw [List.length_zip, List.length_take]; omega, ?_⟩
      rw [List.getElem_zip, List.getElem_take]
    refine ⟨?_, ?_⟩
    · rcases applyAll_torn _ h2 with h4 | h4
      · exact h4
      · obtain ⟨r, hr, h5⟩ := List.mem_map.1 h4
        exact absurd (CacheEvent.opened.inj h5) (hng r hr)
    · intro r hr
      rw [List.flatten_cons] at hr
      rcases List.mem_append.1 hr with hr | hr
      · exact hng r hr
      · exact h1 r hr

section
variable {I : Nat → FileRef → Option Item} {bytes : List Nat} {s : Nat}

theorem storeEvents_done {gs : List (List FileRef)} {xs : List Item} (hl : gs.flatten.length = xs.length) {D : Disk} {r : FileRef}
    (hr : r ∈ gs.flatten) : (D.applyAll (storeEvents s gs xs)).Complete (r.file s) :=
  complete_of ((applyAll_exists _ _ _).2 (Or.inr ((storeEvents_files s _ _ hl _).2 ⟨r, hr, rfl⟩)))
    (fun h => (storeEvents_torn s gs xs hl h).2 r hr rfl)

theorem storeEvents_keeps {gs : List (List FileRef)} {xs : List Item} (hl : gs.flatten.length = xs.length) {D : Disk} {f : File}
    (h : D.Complete f) : (D.applyAll (storeEvents s gs xs)).Complete f := by
  refine complete_of ((applyAll_exists _ _ _).2 (Or.inl h.exists)) (fun ht => ?_)
  obtain ⟨x, hx⟩ := h
  rw [(storeEvents_torn s gs xs hl ht).1] at hx
  cases hx

theorem read_complete {P : Process} (hR : Right I P.disk) {q : CacheRead} {r : FileRef}
    (hn : P.fileName (q.ref.file s) = r.file s) (he : P.disk.Complete (r.file s)) (hr : I s r = I s q.ref) :
    q.run s P = I s q.ref := by
  obtain ⟨x, hc⟩ := he
  have := hR s r x hc
  rw [← hr, this]
  cases q with
  | load r' ty => simp only [CacheRead.run, CacheRead.ref] at hn ⊢; rw [hn, hc]
  | buffer r' => simp only [CacheRead.run, CacheRead.ref] at hn ⊢; rw [hn, hc]; rfl

/-- what a run of steps does whose files of kind `N` matter -/
structure Mended (I : Nat → FileRef → Option Item) (N : FileRef → Bool) (s : Nat) (P : Process) (outs : List FileRef) (es : List CacheEvent)
    (P' : Process) : Prop where
  stay : Right I P'.disk
  map : MapOK P'.fileMap
  disk : P'.disk = P.disk.applyAll es
  right : ∀ e ∈ es, e.Right I
  all : ∀ r ∈ outs, N r = true → P'.disk.Complete (r.file s)
  keeps : ∀ f, P.disk.Complete f → P'.disk.Complete f
  only : ∀ f, (P'.disk f).isSome = true → (P.disk f).isSome = true ∨ ∃ r ∈ outs, r.file s = f

variable {N : FileRef → Bool}

theorem Mended.refl {P : Process} (h : Right I P.disk) (hm : MapOK P.fileMap) {outs : List FileRef}
    (ho : ∀ r ∈ outs, N r = true → P.disk.Complete (r.file s)) : Mended I N s P outs [] P :=
  ⟨h, hm, rfl, by simp, ho, fun _ h => h, fun _ h => Or.inl h⟩

theorem Mended.trans {P P' P'' : Process} {o o' : List FileRef} {es es' : List CacheEvent} (h : Mended I N s P o es P')
    (h' : Mended I N s P' o' es' P'') : Mended I N s P (o ++ o') (es ++ es') P'' := by
  refine ⟨h'.stay, h'.map, ?_, ?_, ?_, fun f hf => h'.keeps f (h.keeps f hf), ?_⟩
  · rw [applyAll_append, ← h.disk]; exact h'.disk
  · intro e he
    rcases List.mem_append.1 he with he | he
    · exact h.right e he
    · exact h'.right e he
  · intro r hr hN
    rcases List.mem_append.1 hr with hr | hr
    · exact h'.keeps _ (h.all r hr hN)
    · exact h'.all r hr hN
  · intro f hf
    rcases h'.only f hf with hf | ⟨r, hr, e⟩
    · rcases h.only f hf with hf | ⟨r, hr, e⟩
      · exact Or.inl hf
      · exact Or.inr ⟨r, List.mem_append_left _ hr, e⟩
    · exact Or.inr ⟨r, List.mem_append_right _ hr, e⟩

theorem step_mend (hI : RateFree I) {st : CacheStep} (hst : StepOK I bytes s st) {P : Process} (hR : Right I P.disk) (hM : MapOK P.fileMap)
    (ha : ∀ q ∈ st.aliases, q = ((.subPsiIdx, none), (.subPsiIdx, some .ints)))
    (hin : ∀ q ∈ st.inputs, ∃ r, P.fileName (q.ref.file s) = r.file s ∧ P.disk.Complete (r.file s) ∧ I s r = I s q.ref) :
    ∃ es, st.run bytes s P = some es ∧ Mended I (fun _ => true) s P st.outputs.flatten es (st.after s es P) := by
  obtain ⟨xs, ys, hx, hc, hy⟩ := hst
  have hlen := (mapM_length hy).symm
  refine ⟨storeEvents s st.outputs ys, ?_, ⟨applyAll_right _ hR (events_right hI hy), mapOK_after hM ha, rfl, events_right hI hy,
    fun r hr _ => storeEvents_done hlen hr, fun f hf => storeEvents_keeps hlen hf, ?_⟩⟩
  · unfold CacheStep.run
    rw [mapM_congr' (g := fun q => I s q.ref) (fun q hq => by
      obtain ⟨r, h1, h2, h3⟩ := hin q hq
      exact read_complete hR h1 h2 h3), hx]
    simp only [Option.bind_eq_bind, Option.bind_some, Option.pure_def, hc]
  · intro f hf
    change ((P.disk.applyAll _) _).isSome = true at hf
    rw [applyAll_exists, storeEvents_files s _ _ hlen] at hf
    exact hf

theorem Mended.weaken {P P' : Process} {o : List FileRef} {es : List CacheEvent} (h : Mended I (fun _ => true) s P o es P') : Mended I N s P o es P' :=
  ⟨h.stay, h.map, h.disk, h.right, fun r hr _ => h.all r hr rfl, h.keeps, h.only⟩

/-- if a guard is there, the outputs that matter are complete -/
def GuardsDone (N : FileRef → Bool) (s : Nat) (D : Disk) (st : CacheStep) : Prop :=
  ∀ g ∈ st.guards, (D (g.file s)).isSome = true → ∀ r ∈ st.outputs.flatten, N r = true → D.Complete (r.file s)

/-- the inputs of every step come from steps before and matter; a later step whose guard is written has the outputs that matter written too -/
def checkMend (N : FileRef → Bool) : List FileRef → List CacheStep → Bool
  | _, [] => true
  | A, st :: rest =>
    st.inputs.all (fun q => decide (q.ref ∈ A) && N q.ref) && plainRefs (st.inputs.map (·.ref)) && plainRefs st.guards && st.aliases.isEmpty
      && rest.all (fun st' => !st'.guards.any (fun g => decide (g ∈ st.outputs.flatten)) ||
          st'.outputs.flatten.all (fun r => decide (r ∈ A ++ st.outputs.flatten)))
      && checkMend N (A ++ st.outputs.flatten) rest

theorem guardsDone_after {P P' : Process} {outs : List FileRef} {es : List CacheEvent} (hr : Mended I N s P outs es P') {st : CacheStep}
    (h : GuardsDone N s P.disk st) {A : List FileRef} (hA : ∀ r ∈ A, N r = true → P.disk.Complete (r.file s))
    (hc : ∀ g ∈ st.guards, g ∈ outs → ∀ r ∈ st.outputs.flatten, r ∈ A ++ outs) : GuardsDone N s P'.disk st := by
  intro g hg he r hr' hN
  rcases hr.only _ he with he | ⟨q, hq, e⟩
  · exact hr.keeps _ (h g hg he r hr' hN)
  · obtain ⟨rfl, -⟩ := file_inj e
    rcases List.mem_append.1 (hc q hg hq r hr') with h1 | h1
    · exact hr.keeps _ (hA r h1 hN)
    · exact hr.all r h1 hN

theorem run_mend (hI : RateFree I) : ∀ (steps : List CacheStep) (A : List FileRef) (P : Process), (∀ st ∈ steps, StepOK I bytes s st) →
    checkMend N A steps = true → Right I P.disk → MapOK P.fileMap → (∀ r ∈ A, N r = true → P.disk.Complete (r.file s)) →
    (∀ st ∈ steps, GuardsDone N s P.disk st) →
    ∃ es P', runSteps bytes s steps P = (es, some P') ∧ Mended I N s P (outputsOf steps) es P'
  | [], _, P, _, _, hR, hM, _, _ => ⟨[], P, rfl, Mended.refl hR hM (by simp [outputsOf])⟩
  | st :: rest, A, P, hst, hc, hR, hM, hA, hG => by
    simp only [checkMend, Bool.and_eq_true] at hc
    obtain ⟨⟨⟨⟨⟨c1, c2⟩, c3⟩, c4⟩, c5⟩, c6⟩ := hc
    have hgs : ∀ g ∈ st.guards, P.has (g.file s) = (P.disk (g.file s)).isSome := fun g hg =>
      has_eq hM (of_decide_eq_true (List.all_eq_true.1 c3 g hg))
    have hout : outputsOf (st :: rest) = st.outputs.flatten ++ outputsOf rest := by unfold outputsOf; rw [List.flatMap_cons]
    unfold runSteps
    cases hg : st.guards.any (fun r => P.has (r.file s)) with
    | true =>
      rw [if_pos rfl]
      obtain ⟨g, hg1, hg2⟩ := List.any_eq_true.1 hg
      rw [hgs g hg1] at hg2
      have ho := hG st List.mem_cons_self g hg1 hg2
      obtain ⟨es, P', h1, h2⟩ := run_mend hI rest (A ++ st.outputs.flatten) P (fun st' h => hst st' (List.mem_cons_of_mem _ h)) c6 hR hM
        (fun r hr => by
          rcases List.mem_append.1 hr with hr | hr
          · exact hA r hr
          · exact ho r hr) (fun st' h => hG st' (List.mem_cons_of_mem _ h))
      refine ⟨es, P', h1, ?_⟩
      rw [hout]
      have := (Mended.refl (N := N) (s := s) hR hM ho).trans h2
      rwa [List.nil_append] at this
    | false =>
      rw [if_neg (by simp)]
      obtain ⟨es, h1, h2⟩ := step_mend hI (hst st List.mem_cons_self) hR hM (fun q hq => by
          rw [List.isEmpty_iff.1 c4] at hq; simp at hq) (fun q hq => by
          have := List.all_eq_true.1 c1 q hq
          rw [Bool.and_eq_true] at this
          refine ⟨q.ref, hM.fileName ?_, hA _ (of_decide_eq_true this.1) this.2, rfl⟩
          exact of_decide_eq_true (List.all_eq_true.1 c2 q.ref (List.mem_map.2 ⟨q, hq, rfl⟩)))
      have h2 := h2.weaken (N := N)
      obtain ⟨es', P', h3, h4⟩ := run_mend hI rest (A ++ st.outputs.flatten) (st.after s es P)
        (fun st' h => hst st' (List.mem_cons_of_mem _ h)) c6 h2.stay h2.map
        (fun r hr hN => by
          rcases List.mem_append.1 hr with hr | hr
          · exact h2.keeps _ (hA r hr hN)
          · exact h2.all r hr hN)
        (fun st' h' => guardsDone_after h2 (hG st' (List.mem_cons_of_mem _ h')) hA (fun g hg1 hg2 r hr => by
          have := List.all_eq_true.1 c5 st' h'
          rw [Bool.or_eq_true, Bool.not_eq_true', List.any_eq_false] at this
          rcases this with this | this
          · exact absurd (decide_eq_true hg2) (this g hg1)
          · exact of_decide_eq_true (List.all_eq_true.1 this r hr)))
      refine ⟨es ++ es', P', ?_, ?_⟩
      · rw [h1]; dsimp only; rw [h3]
      · rw [hout]; exact h2.trans h4

/-- the samples and the marks of psi runs -/
theorem mid_mend (hI : RateFree I) (hal : I s (.subPsiIdx, some .ints) = I s (.subPsiIdx, none)) (h1 : StepOK I bytes s Steps.samplesPsi)
    (h2 : StepOK I bytes s Steps.marksPsi) {P : Process} (hR : Right I P.disk) (hM : MapOK P.fileMap)
    (hA : ∀ r ∈ [((.psiFirst, some .ints) : FileRef), (.psiFirstAsc, none), (.psiLink, some .ints), (.psiLast, some .ints)],
      P.disk.Complete (FileRef.file s r))
    (hg1 : GuardsDone N s P.disk Steps.samplesPsi) (hg2 : GuardsDone N s P.disk Steps.marksPsi)
    (hp : (P.disk (FileRef.file s (.subPsiFirst, some .ints))).isSome = true → (P.disk (FileRef.file s (.subPsiLast, some .ints))).isSome = true) :
    ∃ es P', runSteps bytes s [Steps.samplesPsi, Steps.marksPsi] P = (es, some P') ∧
      Mended I N s P (outputsOf [Steps.samplesPsi, Steps.marksPsi]) es P' := by
  have hout : outputsOf [Steps.samplesPsi, Steps.marksPsi] = Steps.samplesPsi.outputs.flatten ++ Steps.marksPsi.outputs.flatten := rfl
  have e1 : ∀ Q : Process, MapOK Q.fileMap →
      Steps.samplesPsi.guards.any (fun r => Q.has (r.file s)) = (Q.disk (FileRef.file s (.subPsiFirst, some .ints))).isSome := by
    intro Q hQ
    simp only [Steps.samplesPsi, List.any_cons, List.any_nil, Bool.or_false]
    exact has_eq hQ (by decide)
  have e2 : ∀ Q : Process, MapOK Q.fileMap → (Steps.marksPsi.guards.any (fun r => Q.has (r.file s)) = true ↔
      ∃ g ∈ Steps.marksPsi.guards, (Q.disk (FileRef.file s g)).isSome = true) := by
    intro Q hQ
    rw [List.any_eq_true]
    constructor
    · rintro ⟨g, hg, h⟩
      refine ⟨g, hg, ?_⟩
      rwa [has_eq hQ (r := g) (by
        simp only [Steps.marksPsi, List.mem_cons, List.not_mem_nil, or_false] at hg
        rcases hg with rfl | rfl <;> decide)] at h
    · rintro ⟨g, hg, h⟩
      refine ⟨g, hg, ?_⟩
      rwa [has_eq hQ (r := g) (by
        simp only [Steps.marksPsi, List.mem_cons, List.not_mem_nil, or_false] at hg
        rcases hg with rfl | rfl <;> decide)]
  rw [runSteps_cons]
  cases hx : (P.disk (FileRef.file s (.subPsiFirst, some .ints))).isSome with
  | true =>
    rw [if_pos ((e1 P hM).trans hx), runSteps_cons]
    have hl := hp hx
    have hgm : ((.subPsiLast, some .ints) : FileRef) ∈ Steps.marksPsi.guards := by decide
    rw [if_pos ((e2 P hM).2 ⟨_, hgm, hl⟩)]
    refine ⟨[], P, rfl, Mended.refl hR hM ?_⟩
    intro r hr
    rw [hout] at hr
    rcases List.mem_append.1 hr with hr | hr
    · exact hg1 (.subPsiFirst, some .ints) (by decide) hx r hr
    · exact hg2 _ hgm hl r hr
  | false =>
    rw [if_neg (by rw [e1 P hM, hx]; decide)]
    obtain ⟨es, h3, h4⟩ := step_mend hI h1 hR hM (by decide) (fun q hq => by
      simp only [Steps.samplesPsi, List.mem_cons, List.not_mem_nil, or_false] at hq
      rcases hq with rfl | rfl | rfl
      · exact ⟨_, hM.fileName (by decide), hA _ (by decide), rfl⟩
      · exact ⟨_, hM.fileName (by decide), hA _ (by decide), rfl⟩
      · exact ⟨_, hM.fileName (by decide), hA _ (by decide), rfl⟩)
    rw [h3]
    dsimp only
    obtain ⟨Q, hQ⟩ : ∃ Q, Q = Steps.samplesPsi.after s es P := ⟨_, rfl⟩
    have hmap : Q.fileName (FileRef.file s (.subPsiIdx, none)) = FileRef.file s (.subPsiIdx, some .ints) := by
      rw [hQ]
      unfold Process.fileName CacheStep.after
      simp [Steps.samplesPsi]
    rw [← hQ] at h4 ⊢
    rw [runSteps_cons]
    by_cases hy : Steps.marksPsi.guards.any (fun r => Q.has (r.file s)) = true
    · rw [if_pos hy]
      obtain ⟨g, hg, hgq⟩ := (e2 Q h4.map).1 hy
      refine ⟨_, _, rfl, ?_⟩
      rw [hout]
      refine h4.weaken.trans (Mended.refl h4.stay h4.map ?_)
      refine guardsDone_after (A := []) h4.weaken hg2 (by simp) ?_ g hg hgq
      decide
    · rw [if_neg hy]
      obtain ⟨es', h5, h6⟩ := step_mend hI h2 h4.stay h4.map (by decide) (fun q hq => by
        simp only [Steps.marksPsi, List.mem_cons, List.not_mem_nil, or_false] at hq
        rcases hq with rfl | rfl | rfl
        · exact ⟨_, hmap, h4.all _ (by decide) rfl, hal⟩
        · exact ⟨_, h4.map.fileName (by decide), h4.keeps _ (hA _ (by decide)), rfl⟩
        · exact ⟨_, h4.map.fileName (by decide), h4.keeps _ (hA _ (by decide)), rfl⟩)
      rw [h5]
      refine ⟨_, _, rfl, ?_⟩
      rw [hout]
      have := h4.weaken.trans (h6.weaken (N := N))
      simpa [runSteps] using this

theorem psi_mend (hI : RateFree I) (hal : I s (.subPsiIdx, some .ints) = I s (.subPsiIdx, none)) (pre post : List CacheStep)
    (hst : ∀ st ∈ pre ++ [Steps.samplesPsi, Steps.marksPsi] ++ post, StepOK I bytes s st) (hc1 : checkMend N [] pre = true)
    (hc2 : checkMend N (outputsOf pre ++ outputsOf [Steps.samplesPsi, Steps.marksPsi]) post = true)
    (hm1 : ∀ r ∈ [((.psiFirst, some .ints) : FileRef), (.psiFirstAsc, none), (.psiLink, some .ints), (.psiLast, some .ints)],
      r ∈ outputsOf pre ∧ N r = true)
    (hm2 : ∀ r ∈ [((.subPsiFirst, some .ints) : FileRef), (.subPsiLast, some .sdVector), (.subPsiLast, some .ints)], r ∉ outputsOf pre)
    (hm3 : ∀ st ∈ post, ∀ g ∈ st.guards, g ∈ outputsOf pre ++ outputsOf [Steps.samplesPsi, Steps.marksPsi] →
      ∀ r ∈ st.outputs.flatten, r ∈ outputsOf pre ++ outputsOf [Steps.samplesPsi, Steps.marksPsi])
    {P : Process} (hR : Right I P.disk) (hM : MapOK P.fileMap)
    (hG : ∀ st ∈ pre ++ [Steps.samplesPsi, Steps.marksPsi] ++ post, GuardsDone N s P.disk st)
    (hp : (P.disk (FileRef.file s (.subPsiFirst, some .ints))).isSome = true → (P.disk (FileRef.file s (.subPsiLast, some .ints))).isSome = true) :
    ∃ es P', runSteps bytes s (pre ++ [Steps.samplesPsi, Steps.marksPsi] ++ post) P = (es, some P') ∧
      Mended I N s P (outputsOf (pre ++ [Steps.samplesPsi, Steps.marksPsi] ++ post)) es P' := by
  have m1 : ∀ st ∈ pre, st ∈ pre ++ [Steps.samplesPsi, Steps.marksPsi] ++ post := fun st h => by simp [h]
  have m2 : ∀ st ∈ post, st ∈ pre ++ [Steps.samplesPsi, Steps.marksPsi] ++ post := fun st h => by simp [h]
  have m3 : Steps.samplesPsi ∈ pre ++ [Steps.samplesPsi, Steps.marksPsi] ++ post := by simp
  have m4 : Steps.marksPsi ∈ pre ++ [Steps.samplesPsi, Steps.marksPsi] ++ post := by simp
  obtain ⟨es1, P1, r1, R1⟩ := run_mend hI pre [] P (fun st h => hst st (m1 st h)) hc1 hR hM (by simp) (fun st h => hG st (m1 st h))
  obtain ⟨es2, P2, r2, R2⟩ := mid_mend (N := N) hI hal (hst _ m3) (hst _ m4) R1.stay R1.map (fun r hr => R1.all r (hm1 r hr).1 (hm1 r hr).2)
    (guardsDone_after (A := []) R1 (hG _ m3) (by simp) (fun g hg hgo => by
      simp only [Steps.samplesPsi, List.mem_cons, List.not_mem_nil, or_false] at hg
      subst hg
      exact absurd hgo (hm2 _ (by decide))))
    (guardsDone_after (A := []) R1 (hG _ m4) (by simp) (fun g hg hgo => by
      simp only [Steps.marksPsi, List.mem_cons, List.not_mem_nil, or_false] at hg
      rcases hg with rfl | rfl <;> exact absurd hgo (hm2 _ (by decide))))
    (fun he => by
      rcases R1.only _ he with he | ⟨q, hq, e⟩
      · have := hp he
        rw [R1.disk, applyAll_exists]; exact Or.inl this
      · obtain ⟨rfl, -⟩ := file_inj e
        exact absurd hq (hm2 _ (by decide)))
  have R12 := R1.trans R2
  obtain ⟨es3, P3, r3, R3⟩ := run_mend hI post _ P2 (fun st h => hst st (m2 st h)) hc2 R2.stay R2.map (fun r hr hN => R12.all r hr hN)
    (fun st h => guardsDone_after (A := []) R12 (hG st (m2 st h)) (by simp) (hm3 st h))
  refine ⟨es1 ++ es2 ++ es3, P3, ?_, ?_⟩
  · rw [runSteps_append bytes s _ post P (es := es1 ++ es2) (P' := P2) (by rw [runSteps_append bytes s pre _ P r1, r2]), r3]
  · have : outputsOf (pre ++ [Steps.samplesPsi, Steps.marksPsi] ++ post) = outputsOf pre ++ outputsOf [Steps.samplesPsi, Steps.marksPsi] ++ outputsOf post := by
      unfold outputsOf; rw [List.flatMap_append, List.flatMap_append]
    rw [this]
    exact R12.trans R3

end

/-- the files that matter to an index: those that a step of its construction or its load reads -/
def IndexType.reads (t : IndexType) (b : BvKind) : List FileRef :=
  (program t b).flatMap (fun st => st.inputs.map (·.ref)) ++ (accesses t b).map (accessRef t)

section
variable {T sa : List Nat} {v : BaseVals T sa} {w : ∀ s, RateVals v s} {bytes : List Nat}

/-- construct on a cache in which the steps that will be skipped left what matters to the index -/
theorem program_mend (h : Input bytes T sa) (t : IndexType) (b : BvKind) (s : Nat) (N : FileRef → Bool)
    (hN : ∀ r ∈ t.reads b, N r = true) {P : Process} (hR : Right (ideal v w) P.disk) (hM : MapOK P.fileMap)
    (hG : ∀ st ∈ program t b, GuardsDone N s P.disk st)
    (hp : (P.disk (FileRef.file s (.subPsiFirst, some .ints))).isSome = true → (P.disk (FileRef.file s (.subPsiLast, some .ints))).isSome = true) :
    ∃ es P', runSteps bytes s (program t b) P = (es, some P') ∧ Mended (ideal v w) N s P (outputsOf (program t b)) es P' := by
  have hst : ∀ st ∈ program t b, StepOK (ideal v w) bytes s st := ok_program (v := v) (w := w) (s := s) h t b
  have weak : ∀ (l : List CacheStep) (A : List FileRef), (∀ st ∈ l, st ∈ program t b) → checkMend (fun _ => true) A l = true → checkMend N A l = true := by
    intro l
    induction l with
    | nil => intro _ _ _; rfl
    | cons st l ih =>
      intro A hl hc
      simp only [checkMend, Bool.and_eq_true] at hc ⊢
      obtain ⟨⟨⟨⟨⟨c1, c2⟩, c3⟩, c4⟩, c5⟩, c6⟩ := hc
      refine ⟨⟨⟨⟨⟨?_, c2⟩, c3⟩, c4⟩, c5⟩, ih _ (fun st' h' => hl st' (List.mem_cons_of_mem _ h')) c6⟩
      rw [List.all_eq_true] at c1 ⊢
      intro q hq
      have := c1 q hq
      rw [Bool.and_true] at this
      rw [this, Bool.true_and]
      refine hN _ (List.mem_append_left _ (List.mem_flatMap.2 ⟨st, hl st List.mem_cons_self, List.mem_map.2 ⟨q, hq, rfl⟩⟩))
  have plain : checkMend (fun _ => true) [] (program t b) = true →
      ∃ es P', runSteps bytes s (program t b) P = (es, some P') ∧ Mended (ideal v w) N s P (outputsOf (program t b)) es P' :=
    fun hc => run_mend (ideal_rateFree v w) _ [] P hst (weak _ _ (fun _ h => h) hc) hR hM (by simp) hG
  have psi : ∀ post, program t b = psiPre ++ [Steps.samplesPsi, Steps.marksPsi] ++ post →
      checkMend (fun _ => true) (outputsOf psiPre ++ outputsOf [Steps.samplesPsi, Steps.marksPsi]) post = true →
      (∀ x ∈ post.map CacheStep.shape, ∀ g ∈ x.1, g ∈ outputsOf psiPre ++ outputsOf [Steps.samplesPsi, Steps.marksPsi] →
        ∀ r ∈ x.2, r ∈ outputsOf psiPre ++ outputsOf [Steps.samplesPsi, Steps.marksPsi]) →
      ∃ es P', runSteps bytes s (program t b) P = (es, some P') ∧ Mended (ideal v w) N s P (outputsOf (program t b)) es P' := by
    intro post e hc hm
    have c1 := weak psiPre [] (fun st h => by rw [e]; simp [h]) (by decide +kernel)
    have c2 := weak post _ (fun st h => by rw [e]; simp [h]) hc
    have mid : ∀ q ∈ (Steps.samplesPsi.inputs ++ Steps.marksPsi.inputs), N q.ref = true := by
      intro q hq
      refine hN _ (List.mem_append_left _ ?_)
      rw [e, List.flatMap_append, List.flatMap_append]
      refine List.mem_append_left _ (List.mem_append_right _ ?_)
      simp only [List.flatMap_cons, List.flatMap_nil, List.append_nil]
      rw [← List.map_append]
      exact List.mem_map.2 ⟨q, hq, rfl⟩
    have hm1 : ∀ r ∈ [((.psiFirst, some .ints) : FileRef), (.psiFirstAsc, none), (.psiLink, some .ints), (.psiLast, some .ints)], N r = true := by
      have := fun q hq => mid q hq
      simp only [Steps.samplesPsi, Steps.marksPsi, List.cons_append, List.nil_append, List.mem_cons, List.not_mem_nil, or_false, forall_eq_or_imp,
        forall_eq, CacheRead.ref] at this ⊢
      tauto
    have hm1' : ∀ r ∈ [((.psiFirst, some .ints) : FileRef), (.psiFirstAsc, none), (.psiLink, some .ints), (.psiLast, some .ints)], r ∈ outputsOf psiPre := by
      decide +kernel
    rw [e] at hst hG ⊢
    exact psi_mend (ideal_rateFree v w) rfl psiPre post hst c1 c2 (fun r hr => ⟨hm1' r hr, hm1 r hr⟩) (by decide +kernel)
      (fun st h => hm _ (List.mem_map.2 ⟨st, h, rfl⟩)) hR hM hG hp
  cases t
  case srCSAWithPsiRun =>
    exact psi (psiPost b) (by simp only [program, Steps.srCSAWithPsiRun, psiPre, psiPost])
      (by cases b <;> decide +kernel) (by cases b <;> decide +kernel)
  case psiValidMark =>
    exact psi (psiPost b ++ Steps.psiValidMark) (by simp only [program, Steps.srCSAWithPsiRun, psiPre, psiPost, List.append_assoc])
      (by cases b <;> decide +kernel) (by cases b <;> decide +kernel)
  case psiValidArea =>
    exact psi (psiPost b ++ Steps.psiValidMark ++ [Steps.areasPsi])
      (by simp only [program, Steps.srCSAWithPsiRun, psiPre, psiPost, List.append_assoc])
      (by cases b <;> decide +kernel) (by cases b <;> decide +kernel)
  all_goals exact plain (by cases b <;> decide +kernel)

/-- and afterwards the cache has the index -/
theorem mended_hasIndex {t : IndexType} {b : BvKind} {s : Nat} {N : FileRef → Bool} (hN : ∀ r ∈ t.reads b, N r = true) {P P' : Process}
    {es : List CacheEvent} (h : Mended (ideal v w) N s P (outputsOf (program t b)) es P') : P'.cache.HasIndex t b T sa s := by
  refine ⟨_, partsOf_vals (v := v) (w := w) t s, ?_⟩
  intro f hf
  obtain ⟨a, ha, rfl⟩ := List.mem_map.1 hf
  dsimp only
  unfold Process.cache
  rw [access_file ha, h.map.fileName (access_named t b a ha)]
  obtain ⟨x, hx⟩ := h.all _ (access_written t b a ha) (hN _ (List.mem_append_right _ (List.mem_map.2 ⟨a, ha, rfl⟩)))
  rw [hx, Option.bind_some, id, ← h.stay s _ x hx, ideal_item t b s a ha]

end
end Sri

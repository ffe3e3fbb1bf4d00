import Verif.Proofs.CacheIdeal
import Verif.Props.Serialize
/-! # Construction over a cache without half-done steps -/
namespace Sri
set_option autoImplicit false

/-! ## Checks of the programs -/

/-- what the checks need of a step -/
def CacheStep.shape (st : CacheStep) : List FileRef × List FileRef := (st.guards, st.outputs.flatten)

/-- the shapes of all the steps -/
def allShapes : List (List FileRef × List FileRef) :=
  ((program .srIndexValidArea .sd ++ program .srIndexValidArea .plain ++ program .srCSAValidArea .sd ++ program .srCSAValidArea .plain ++
    program .srCSASlim .sd ++ program .srCSASlim .plain ++ program .psiValidArea .sd ++ program .psiValidArea .plain).map CacheStep.shape).eraseDups

theorem shape_mem (t : IndexType) (b : BvKind) : ∀ st ∈ program t b, st.shape ∈ allShapes := by
  have : ∀ x ∈ (program t b).map CacheStep.shape, x ∈ allShapes := by cases t <;> cases b <;> decide +kernel
  exact fun st hst => this _ (List.mem_map.2 ⟨st, hst, rfl⟩)

theorem shapes_rate : ∀ sh ∈ allShapes, ∀ g ∈ sh.1, ∀ r ∈ sh.2, g.1.key.1 = false → r.1.key.1 = false := by decide +kernel

/-- a set of files closed under: if the guard of a step is in it, so is all that the step writes -/
def Closed (outs : List FileRef) : Prop := ∀ sh ∈ allShapes, ∀ g ∈ sh.1, g ∈ outs → ∀ r ∈ sh.2, r ∈ outs

/-- after every step the files written so far are closed -/
def closedSteps : List FileRef → List CacheStep → Bool
  | _, [] => true
  | A, st :: rest =>
    allShapes.all (fun sh => !sh.1.any (fun g => decide (g ∈ st.outputs.flatten)) || sh.2.all (fun r => decide (r ∈ A ++ st.outputs.flatten)))
      && closedSteps (A ++ st.outputs.flatten) rest

theorem closedSteps_ok : ∀ (l : List CacheStep) (A : List FileRef), Closed A → closedSteps A l = true →
    ∀ p q : List CacheStep, l = p ++ q → Closed (A ++ outputsOf p)
  | l, A, hA, _, [], q, _ => by simpa [outputsOf] using hA
  | [], _, _, _, _ :: _, _, e => by simp at e
  | st :: l, A, hA, hc, st' :: p, q, e => by
    rw [List.cons_append, List.cons.injEq] at e
    obtain ⟨rfl, e⟩ := e
    simp only [closedSteps, Bool.and_eq_true] at hc
    have : A ++ outputsOf (st :: p) = (A ++ st.outputs.flatten) ++ outputsOf p := by
      unfold outputsOf; rw [List.flatMap_cons, List.append_assoc]
    rw [this]
    refine closedSteps_ok l _ ?_ hc.2 p q e
    intro sh hsh g hg hgo r hr
    rcases List.mem_append.1 hgo with hgo | hgo
    · exact List.mem_append_left _ (hA sh hsh g hg hgo r hr)
    · have := List.all_eq_true.1 hc.1 sh hsh
      rw [Bool.or_eq_true, Bool.not_eq_true', List.any_eq_false] at this
      rcases this with this | this
      · exact absurd (decide_eq_true hgo) (this g hg)
      · exact of_decide_eq_true (List.all_eq_true.1 this r hr)

theorem program_closed (t : IndexType) (b : BvKind) : closedSteps [] (program t b) = true := by
  cases t <;> cases b <;> decide +kernel

theorem prefix_closed {t : IndexType} {b : BvKind} {p q : List CacheStep} (h : program t b = p ++ q) : Closed (outputsOf p) := by
  have := closedSteps_ok (program t b) [] (fun _ _ _ _ h => by simp at h) (program_closed t b) p q h
  simpa using this

/-- the samples of psi runs only with the marks -/
def PsiPaired (outs : List FileRef) : Prop := (.subPsiFirst, some .ints) ∈ outs → (.subPsiLast, some .ints) ∈ outs

theorem psi_check (t : IndexType) (b : BvKind) : PsiPaired (outputsOf (program t b)) := by
  unfold PsiPaired
  cases t <;> cases b <;> decide +kernel

/-! ## A run from a clean directory -/

/-- the directory that complete constructions leave: no file is torn; of every step the guard is there only with all that the step
    writes; and the samples of psi runs are there only with the marks -/
structure CleanDisk (D : Disk) : Prop where
  whole : ∀ f, D f ≠ some none
  steps : ∀ t b, ∀ st ∈ program t b, ∀ s, ∀ g ∈ st.guards, (D (g.file s)).isSome = true →
    ∀ r ∈ st.outputs.flatten, (D (r.file s)).isSome = true
  psi : ∀ s, (D (FileRef.file s (.subPsiFirst, some .ints))).isSome = true → (D (FileRef.file s (.subPsiLast, some .ints))).isSome = true

section
variable {I : Nat → FileRef → Option Item} {bytes : List Nat} {s : Nat}

theorem CleanDisk.after {P P' : Process} (h : CleanDisk P.disk) {outs : List FileRef} (hc : Closed outs) (hp : PsiPaired outs) {es : List CacheEvent}
    (hr : Ran I s P outs es P') : CleanDisk P'.disk where
  whole := hr.sound.whole
  steps := by
    intro t' b' st hst s' g hg he r hr'
    rcases hr.only _ he with he | ⟨q, hq, e⟩
    · exact hr.keeps (h.steps t' b' st hst s' g hg he r hr')
    · obtain ⟨rfl, hs⟩ := file_inj e
      have h2 := shapes_rate _ (shape_mem t' b' st hst) q hg r hr'
      have := hr.all r (hc _ (shape_mem t' b' st hst) q hg hq r hr')
      cases hk : q.1.key.1 with
      | true => rw [← hs hk]; exact this
      | false => rw [file_eq_of_plain (h2 hk) s' s]; exact this
  psi := by
    intro s' he
    rcases hr.only _ he with he | ⟨q, hq, e⟩
    · exact hr.keeps (h.psi s' he)
    · obtain ⟨rfl, hs⟩ := file_inj e
      have := hr.all _ (hp hq)
      rw [← hs rfl]; exact this

theorem guards_after {P P' : Process} {outs : List FileRef} {es : List CacheEvent} (hr : Ran I s P outs es P') {st : CacheStep}
    (h : GuardsOK s P.disk st) (hc : ∀ g ∈ st.guards, g ∈ outs → ∀ r ∈ st.outputs.flatten, r ∈ outs) : GuardsOK s P'.disk st := by
  intro g hg he r hr'
  rcases hr.only _ he with he | ⟨q, hq, e⟩
  · exact hr.keeps (h g hg he r hr')
  · obtain ⟨rfl, -⟩ := file_inj e
    exact hr.all r (hc q hg hq r hr')

/-- the samples and the marks of psi runs -/
theorem mid_run (hI : RateFree I) (hal : I s (.subPsiIdx, some .ints) = I s (.subPsiIdx, none)) (h1 : StepOK I bytes s Steps.samplesPsi)
    (h2 : StepOK I bytes s Steps.marksPsi) {P : Process} (hP : Sound I P)
    (hA : ∀ r ∈ [((.psiFirst, some .ints) : FileRef), (.psiFirstAsc, none), (.psiLink, some .ints), (.psiLast, some .ints)],
      (P.disk (FileRef.file s r)).isSome = true)
    (hg1 : GuardsOK s P.disk Steps.samplesPsi) (hg2 : GuardsOK s P.disk Steps.marksPsi)
    (hp : (P.disk (FileRef.file s (.subPsiFirst, some .ints))).isSome = true → (P.disk (FileRef.file s (.subPsiLast, some .ints))).isSome = true) :
    ∃ es P', runSteps bytes s [Steps.samplesPsi, Steps.marksPsi] P = (es, some P') ∧
      Ran I s P (outputsOf [Steps.samplesPsi, Steps.marksPsi]) es P' := by
  have hout : outputsOf [Steps.samplesPsi, Steps.marksPsi] = Steps.samplesPsi.outputs.flatten ++ Steps.marksPsi.outputs.flatten := rfl
  have hh : ∀ (Q : Process), Sound I Q → ∀ r : FileRef, r ≠ (.subPsiIdx, none) → Q.has (r.file s) = (Q.disk (r.file s)).isSome :=
    fun Q hQ r hr => has_eq hQ.map hr
  have e1 : ∀ Q, Sound I Q → Steps.samplesPsi.guards.any (fun r => Q.has (r.file s)) = (Q.disk (FileRef.file s (.subPsiFirst, some .ints))).isSome := by
    intro Q hQ
    simp only [Steps.samplesPsi, List.any_cons, List.any_nil, Bool.or_false]
    exact hh Q hQ _ (by decide)
  have e2 : ∀ Q, Sound I Q → (Steps.marksPsi.guards.any (fun r => Q.has (r.file s)) = true ↔
      ∃ g ∈ Steps.marksPsi.guards, (Q.disk (FileRef.file s g)).isSome = true) := by
    intro Q hQ
    rw [List.any_eq_true]
    constructor
    · rintro ⟨g, hg, h⟩
      refine ⟨g, hg, ?_⟩
      rwa [hh Q hQ g (by
        simp only [Steps.marksPsi, List.mem_cons, List.not_mem_nil, or_false] at hg
        rcases hg with rfl | rfl <;> decide)] at h
    · rintro ⟨g, hg, h⟩
      refine ⟨g, hg, ?_⟩
      rwa [hh Q hQ g (by
        simp only [Steps.marksPsi, List.mem_cons, List.not_mem_nil, or_false] at hg
        rcases hg with rfl | rfl <;> decide)]
  rw [runSteps_cons]
  cases hx : (P.disk (FileRef.file s (.subPsiFirst, some .ints))).isSome with
  | true =>
    rw [if_pos ((e1 P hP).trans hx), runSteps_cons]
    have hl := hp hx
    have hgm : ((.subPsiLast, some .ints) : FileRef) ∈ Steps.marksPsi.guards := by decide
    rw [if_pos ((e2 P hP).2 ⟨_, hgm, hl⟩)]
    refine ⟨[], P, rfl, Ran.refl hP ?_⟩
    intro r hr
    rw [hout] at hr
    rcases List.mem_append.1 hr with hr | hr
    · exact hg1 (.subPsiFirst, some .ints) (by decide) hx r hr
    · exact hg2 _ hgm hl r hr
  | false =>
    rw [if_neg (by rw [e1 P hP, hx]; decide)]
    obtain ⟨es, h3, h4⟩ := step_run hI h1 hP (by decide) (fun q hq => by
      simp only [Steps.samplesPsi, List.mem_cons, List.not_mem_nil, or_false] at hq
      rcases hq with rfl | rfl | rfl
      · exact ⟨_, hP.map.fileName (by decide), hA _ (by decide), rfl⟩
      · exact ⟨_, hP.map.fileName (by decide), hA _ (by decide), rfl⟩
      · exact ⟨_, hP.map.fileName (by decide), hA _ (by decide), rfl⟩)
    rw [h3]
    dsimp only
    obtain ⟨Q, hQ⟩ : ∃ Q, Q = Steps.samplesPsi.after s es P := ⟨_, rfl⟩
    have hmap : Q.fileName (FileRef.file s (.subPsiIdx, none)) = FileRef.file s (.subPsiIdx, some .ints) := by
      rw [hQ]
      unfold Process.fileName CacheStep.after
      simp [Steps.samplesPsi]
    rw [← hQ] at h4 ⊢
    rw [runSteps_cons]
    by_cases hy : Steps.marksPsi.guards.any (fun r => Q.has (r.file s)) = true
    · rw [if_pos hy]
      obtain ⟨g, hg, hgq⟩ := (e2 Q h4.sound).1 hy
      refine ⟨_, _, rfl, ?_⟩
      rw [hout]
      refine h4.trans (Ran.refl h4.sound ?_)
      refine guards_after h4 hg2 ?_ g hg hgq
      decide
    · rw [if_neg hy]
      obtain ⟨es', h5, h6⟩ := step_run hI h2 h4.sound (by decide) (fun q hq => by
        simp only [Steps.marksPsi, List.mem_cons, List.not_mem_nil, or_false] at hq
        rcases hq with rfl | rfl | rfl
        · exact ⟨_, hmap, h4.all _ (by decide), hal⟩
        · exact ⟨_, h4.sound.map.fileName (by decide), h4.keeps (hA _ (by decide)), rfl⟩
        · exact ⟨_, h4.sound.map.fileName (by decide), h4.keeps (hA _ (by decide)), rfl⟩)
      rw [h5]
      refine ⟨_, _, rfl, ?_⟩
      rw [hout]
      have := h4.trans h6
      simpa [runSteps] using this

/-- a construction with the samples and marks of psi runs in the middle -/
theorem psi_run (hI : RateFree I) (hal : I s (.subPsiIdx, some .ints) = I s (.subPsiIdx, none)) (A : List FileRef) (pre post : List CacheStep)
    (hst : ∀ st ∈ pre ++ [Steps.samplesPsi, Steps.marksPsi] ++ post, StepOK I bytes s st) (hc1 : checkSteps A pre = true)
    (hc2 : checkSteps (A ++ (outputsOf pre ++ outputsOf [Steps.samplesPsi, Steps.marksPsi])) post = true)
    (hm1 : ∀ r ∈ [((.psiFirst, some .ints) : FileRef), (.psiFirstAsc, none), (.psiLink, some .ints), (.psiLast, some .ints)], r ∈ outputsOf pre)
    (hm2 : ∀ r ∈ [((.subPsiFirst, some .ints) : FileRef), (.subPsiLast, some .sdVector), (.subPsiLast, some .ints)], r ∉ outputsOf pre)
    (hm3 : ∀ st ∈ post, ∀ g ∈ st.guards, g ∈ outputsOf pre ++ outputsOf [Steps.samplesPsi, Steps.marksPsi] →
      ∀ r ∈ st.outputs.flatten, r ∈ outputsOf pre ++ outputsOf [Steps.samplesPsi, Steps.marksPsi])
    {P : Process} (hP : Sound I P) (hA : ∀ r ∈ A, (P.disk (r.file s)).isSome = true)
    (hG : ∀ st ∈ pre ++ [Steps.samplesPsi, Steps.marksPsi] ++ post, GuardsOK s P.disk st)
    (hp : (P.disk (FileRef.file s (.subPsiFirst, some .ints))).isSome = true → (P.disk (FileRef.file s (.subPsiLast, some .ints))).isSome = true) :
    ∃ es P', runSteps bytes s (pre ++ [Steps.samplesPsi, Steps.marksPsi] ++ post) P = (es, some P') ∧
      Ran I s P (outputsOf (pre ++ [Steps.samplesPsi, Steps.marksPsi] ++ post)) es P' := by
  have m1 : ∀ st ∈ pre, st ∈ pre ++ [Steps.samplesPsi, Steps.marksPsi] ++ post := fun st h => by simp [h]
  have m2 : ∀ st ∈ post, st ∈ pre ++ [Steps.samplesPsi, Steps.marksPsi] ++ post := fun st h => by simp [h]
  have m3 : Steps.samplesPsi ∈ pre ++ [Steps.samplesPsi, Steps.marksPsi] ++ post := by simp
  have m4 : Steps.marksPsi ∈ pre ++ [Steps.samplesPsi, Steps.marksPsi] ++ post := by simp
  obtain ⟨es1, P1, r1, R1⟩ := run_ok hI pre A P (fun st h => hst st (m1 st h)) hc1 hP hA (fun st h => hG st (m1 st h))
  obtain ⟨es2, P2, r2, R2⟩ := mid_run hI hal (hst _ m3) (hst _ m4) R1.sound (fun r hr => R1.all r (hm1 r hr))
    (guards_after R1 (hG _ m3) (fun g hg hgo => by
      simp only [Steps.samplesPsi, List.mem_cons, List.not_mem_nil, or_false] at hg
      subst hg
      exact absurd hgo (hm2 _ (by decide))))
    (guards_after R1 (hG _ m4) (fun g hg hgo => by
      simp only [Steps.marksPsi, List.mem_cons, List.not_mem_nil, or_false] at hg
      rcases hg with rfl | rfl <;> exact absurd hgo (hm2 _ (by decide))))
    (fun he => by
      rcases R1.only _ he with he | ⟨q, hq, e⟩
      · exact R1.keeps (hp he)
      · obtain ⟨rfl, -⟩ := file_inj e
        exact absurd hq (hm2 _ (by decide)))
  have R12 := R1.trans R2
  obtain ⟨es3, P3, r3, R3⟩ := run_ok hI post _ P2 (fun st h => hst st (m2 st h)) hc2 R2.sound (fun r hr => by
      rcases List.mem_append.1 hr with hr | hr
      · exact R12.keeps (hA r hr)
      · exact R12.all r hr)
    (fun st h => guards_after R12 (hG st (m2 st h)) (hm3 st h))
  refine ⟨es1 ++ es2 ++ es3, P3, ?_, ?_⟩
  · rw [runSteps_append bytes s _ post P (es := es1 ++ es2) (P' := P2) (by rw [runSteps_append bytes s pre _ P r1, r2]), r3]
  · have : outputsOf (pre ++ [Steps.samplesPsi, Steps.marksPsi] ++ post) = outputsOf pre ++ outputsOf [Steps.samplesPsi, Steps.marksPsi] ++ outputsOf post := by
      unfold outputsOf; rw [List.flatMap_append, List.flatMap_append]
    rw [this]
    exact R12.trans R3

end

/-- the steps of the psi-run family before and after the samples and marks -/
def psiPre : List CacheStep := Steps.rcsaWithPsiRun ++ [Steps.sorted .psiFirstAsc (.psiFirst, some .ints)]

def psiPost (b : BvKind) : List CacheStep :=
  [Steps.bitVector .subPsiLast .sd (.subPsiLast, some .ints) (.bwt, none), Steps.markLinksPsi,
     Steps.bitVector .subPsiIdx b (.subPsiIdx, some .ints) (.psiFirst, some .ints), Steps.cumulativePsi]

section
variable {T sa : List Nat} {v : BaseVals T sa} {w : ∀ s, RateVals v s} {bytes : List Nat}

theorem checkSteps_prefix : ∀ (p : List CacheStep) (A : List FileRef) (q : List CacheStep), checkSteps A (p ++ q) = true → checkSteps A p = true
  | [], _, _, _ => rfl
  | st :: p, A, q, h => by
    rw [List.cons_append] at h
    simp only [checkSteps, Bool.and_eq_true, List.all_append] at h ⊢
    obtain ⟨⟨⟨⟨⟨c1, c2⟩, c3⟩, c4⟩, c5, -⟩, c6⟩ := h
    exact ⟨⟨⟨⟨⟨c1, c2⟩, c3⟩, c4⟩, c5⟩, checkSteps_prefix p _ q c6⟩

theorem append_split {α : Type} : ∀ {l₁ l₂ p q : List α}, l₁ ++ l₂ = p ++ q → (∃ c, p ++ c = l₁) ∨ ∃ c, p = l₁ ++ c ∧ l₂ = c ++ q
  | [], l₂, p, q, h => Or.inr ⟨p, rfl, h⟩
  | x :: l₁, l₂, [], q, _ => Or.inl ⟨x :: l₁, rfl⟩
  | x :: l₁, l₂, y :: p, q, h => by
    rw [List.cons_append, List.cons_append, List.cons.injEq] at h
    obtain ⟨rfl, h⟩ := h
    rcases append_split h with ⟨c, rfl⟩ | ⟨c, rfl, h2⟩
    · exact Or.inl ⟨c, rfl⟩
    · exact Or.inr ⟨c, rfl, h2⟩

/-- the first steps of a construction, run on a clean cache, do all their work -/
theorem prefix_run (h : Input bytes T sa) (t : IndexType) (b : BvKind) (s : Nat) {p q : List CacheStep} (hpq : program t b = p ++ q)
    (hpp : PsiPaired (outputsOf p)) {P : Process} (hP : Sound (ideal v w) P) (hC : CleanDisk P.disk) :
    ∃ es P', runSteps bytes s p P = (es, some P') ∧ Ran (ideal v w) s P (outputsOf p) es P' := by
  have hst : ∀ st ∈ p, StepOK (ideal v w) bytes s st := fun st hs =>
    ok_program (v := v) (w := w) (s := s) h t b st (by rw [hpq]; exact List.mem_append_left _ hs)
  have hG : ∀ st ∈ p, GuardsOK s P.disk st := fun st hs => hC.steps t b st (by rw [hpq]; exact List.mem_append_left _ hs) s
  have plain : checkSteps [] p = true →
      ∃ es P', runSteps bytes s p P = (es, some P') ∧ Ran (ideal v w) s P (outputsOf p) es P' :=
    fun hc => run_ok (ideal_rateFree v w) _ [] P hst hc hP (by simp) hG
  have psi : ∀ post, program t b = psiPre ++ ([Steps.samplesPsi, Steps.marksPsi] ++ post) →
      checkSteps (outputsOf psiPre ++ outputsOf [Steps.samplesPsi, Steps.marksPsi]) post = true →
      (∀ x ∈ post.map CacheStep.shape, ∀ g ∈ x.1, g ∈ outputsOf psiPre ++ outputsOf [Steps.samplesPsi, Steps.marksPsi] →
        ∀ r ∈ x.2, r ∈ outputsOf psiPre ++ outputsOf [Steps.samplesPsi, Steps.marksPsi]) →
      ∃ es P', runSteps bytes s p P = (es, some P') ∧ Ran (ideal v w) s P (outputsOf p) es P' := by
    intro post e hc hm
    rw [hpq] at e
    rcases append_split e.symm with ⟨c, hpc⟩ | ⟨c, hpc, e2⟩
    · exact plain (checkSteps_prefix p [] c (by rw [hpc]; decide +kernel))
    · subst hpc
      cases c with
      | nil => rw [List.append_nil] at *; exact plain (by decide +kernel)
      | cons x c =>
        simp only [List.cons_append, List.nil_append, List.cons.injEq] at e2
        obtain ⟨rfl, e2⟩ := e2
        cases c with
        | nil =>
          unfold PsiPaired at hpp
          exact absurd hpp (by decide +kernel)
        | cons y c =>
          simp only [List.cons_append, List.cons.injEq] at e2
          obtain ⟨rfl, e2⟩ := e2
          have e3 : psiPre ++ Steps.samplesPsi :: Steps.marksPsi :: c = psiPre ++ [Steps.samplesPsi, Steps.marksPsi] ++ c := by simp
          rw [e3] at hst hG ⊢
          rw [e2] at hc hm
          exact psi_run (ideal_rateFree v w) rfl [] psiPre c hst (by decide +kernel) (checkSteps_prefix c _ q hc) (by decide +kernel)
            (by decide +kernel) (fun st h => hm _ (List.mem_map.2 ⟨st, by simp [h], rfl⟩)) hP (by simp) hG (hC.psi s)
  cases t
  case srCSAWithPsiRun =>
    exact psi (psiPost b) (by simp only [program, Steps.srCSAWithPsiRun, psiPre, psiPost, List.append_assoc])
      (by cases b <;> decide +kernel) (by cases b <;> decide +kernel)
  case psiValidMark =>
    exact psi (psiPost b ++ Steps.psiValidMark) (by simp only [program, Steps.srCSAWithPsiRun, psiPre, psiPost, List.append_assoc])
      (by cases b <;> decide +kernel) (by cases b <;> decide +kernel)
  case psiValidArea =>
    exact psi (psiPost b ++ Steps.psiValidMark ++ [Steps.areasPsi])
      (by simp only [program, Steps.srCSAWithPsiRun, psiPre, psiPost, List.append_assoc])
      (by cases b <;> decide +kernel) (by cases b <;> decide +kernel)
  all_goals exact plain (checkSteps_prefix p [] q (by rw [← hpq]; cases b <;> decide +kernel))

/-- construct of any index on a clean cache does all its work -/
theorem construct_run (h : Input bytes T sa) (t : IndexType) (b : BvKind) (s : Nat) {P : Process} (hP : Sound (ideal v w) P) (hC : CleanDisk P.disk) :
    ∃ es P', runSteps bytes s (program t b) P = (es, some P') ∧ Ran (ideal v w) s P (outputsOf (program t b)) es P' :=
  prefix_run h t b s (List.append_nil _).symm (psi_check t b) hP hC

end
end Sri

import Verif.Model.BigSteps
import Verif.Proofs.CacheRun
import Verif.Props.BigBWT
/-! # Construction with Big-BWT over a cache -/
namespace Sri
set_option autoImplicit false

/-- the items that the later steps read -/
def baseRefs : List FileRef :=
  [(.bwt, none), (.first, none), (.firstTextPos, none), (.last, none), (.lastTextPos, none), (.alphabet, none), (.bwtRle, none)]

theorem program_later (t : IndexType) (b : BvKind) : program t b = Steps.base ++ laterSteps t b := by
  cases t <;> rfl

section
variable {T sa : List Nat} {v : BaseVals T sa} {w : ∀ s, RateVals v s} {bytes : List Nat}

/-- the steps after the base items, on a clean cache that has these -/
theorem later_run (h : Input bytes T sa) (t : IndexType) (b : BvKind) (s : Nat) {P : Process} (hP : Sound (ideal v w) P) (hC : CleanDisk P.disk)
    (hA : ∀ r ∈ baseRefs, (P.disk (FileRef.file s r)).isSome = true) :
    ∃ es P', runSteps bytes s (laterSteps t b) P = (es, some P') ∧ Ran (ideal v w) s P (outputsOf (laterSteps t b)) es P' := by
  have hmem : ∀ st ∈ laterSteps t b, st ∈ program t b := fun st hs => by rw [program_later]; exact List.mem_append_right _ hs
  have hst : ∀ st ∈ laterSteps t b, StepOK (ideal v w) bytes s st := fun st hs => ok_program (v := v) (w := w) (s := s) h t b st (hmem st hs)
  have hG : ∀ st ∈ laterSteps t b, GuardsOK s P.disk st := fun st hs => hC.steps t b st (hmem st hs) s
  have plain : checkSteps baseRefs (laterSteps t b) = true →
      ∃ es P', runSteps bytes s (laterSteps t b) P = (es, some P') ∧ Ran (ideal v w) s P (outputsOf (laterSteps t b)) es P' :=
    fun hc => run_ok (ideal_rateFree v w) _ baseRefs P hst hc hP hA hG
  have psi : ∀ post, laterSteps t b = psiPre.drop Steps.base.length ++ [Steps.samplesPsi, Steps.marksPsi] ++ post →
      checkSteps (baseRefs ++ (outputsOf (psiPre.drop Steps.base.length) ++ outputsOf [Steps.samplesPsi, Steps.marksPsi])) post = true →
      (∀ x ∈ post.map CacheStep.shape, ∀ g ∈ x.1, g ∈ outputsOf (psiPre.drop Steps.base.length) ++ outputsOf [Steps.samplesPsi, Steps.marksPsi] →
        ∀ r ∈ x.2, r ∈ outputsOf (psiPre.drop Steps.base.length) ++ outputsOf [Steps.samplesPsi, Steps.marksPsi]) →
      ∃ es P', runSteps bytes s (laterSteps t b) P = (es, some P') ∧ Ran (ideal v w) s P (outputsOf (laterSteps t b)) es P' := by
    intro post e hc hm
    rw [e] at hst hG ⊢
    exact psi_run (ideal_rateFree v w) rfl baseRefs (psiPre.drop Steps.base.length) post hst (by decide +kernel) hc (by decide +kernel)
      (by decide +kernel) (fun st h => hm _ (List.mem_map.2 ⟨st, h, rfl⟩)) hP hA hG (hC.psi s)
  cases t
  case srCSAWithPsiRun => exact psi (psiPost b) rfl (by cases b <;> decide +kernel) (by cases b <;> decide +kernel)
  case psiValidMark => exact psi (psiPost b ++ Steps.psiValidMark) rfl (by cases b <;> decide +kernel) (by cases b <;> decide +kernel)
  case psiValidArea =>
    exact psi (psiPost b ++ Steps.psiValidMark ++ [Steps.areasPsi]) rfl (by cases b <;> decide +kernel) (by cases b <;> decide +kernel)
  all_goals exact plain (by cases b <;> decide +kernel)

/-- what the tool leaves for a text (contract): the BWT, and the pairs of position and suffix-array entry of the first and of the last
    position of every run -/
def toolFiles (T sa : List Nat) : BigFiles where
  bwt := bwtOf T sa
  ssa := pairFile sa ((List.range T.length).filter (runStartsAt (bwtOf T sa)))
  esa := pairFile sa ((List.range T.length).filter (runEndsAt (bwtOf T sa)))

theorem bwtOf_white {T sa : List Nat} (hT : IsText T) (hw : ∀ c ∈ T, c ∉ whiteSpace) : ∀ c ∈ bwtOf T sa, c ∉ whiteSpace := by
  intro c hc
  rw [bwtOf, List.mem_map] at hc
  obtain ⟨p, hp, rfl⟩ := hc
  have hlt : prevPos T p < T.length := Nat.mod_lt _ hT.pos
  rw [List.getD_eq_getElem?_getD, List.getElem?_eq_getElem hlt, Option.getD_some]
  exact hw _ (List.getElem_mem _)

theorem ok_bwtBig (hT : IsText T) (hw : ∀ c ∈ T, c ∉ whiteSpace) (s : Nat) :
    StepOK (ideal v w) bytes s (Steps.bwtBig (some (toolFiles T sa))) := by
  refine ⟨[], _, rfl, rfl, ?_⟩
  dsimp only [toolFiles]
  rw [c36_read_partial _ (bwtOf_white hT hw)]
  rfl

theorem ok_bwtRunsBig (hT : IsText T) (hsa : IsSA T sa) (hn : T.length < 2^40) (s : Nat) :
    StepOK (ideal v w) bytes s (Steps.bwtRunsBig (some (toolFiles T sa))) := by
  have h1 := c36_runs T sa hT hsa hn
  have h2 := (base_eqs (v := v)).2.1
  rw [show constructBWT T sa = bwtOf T sa from rfl, h1, Option.some_inj] at h2
  refine ⟨[], _, rfl, rfl, ?_⟩
  dsimp only [toolFiles]
  rw [h2]
  rfl

/-- a step without what it computes -/
def CacheStep.bare (st : CacheStep) : CacheStep := { st with compute := fun _ _ _ => none }

theorem checkSteps_bare : ∀ (l : List CacheStep) (A : List FileRef), checkSteps A l = checkSteps A (l.map CacheStep.bare)
  | [], _ => rfl
  | st :: l, A => by
    simp only [List.map_cons, checkSteps, CacheStep.bare, List.all_map, Function.comp_def]
    rw [checkSteps_bare l]

/-- construct of any index with Big-BWT, on a clean cache: the files of the tool are there only with the BWT in the cache -/
theorem big_run (h : Input bytes T sa) (hT : IsText T) (hsa : IsSA T sa) (hn : T.length < 2^40) (hw : ∀ c ∈ T, c ∉ whiteSpace)
    (t : IndexType) (b : BvKind) (s : Nat) {P : Process} (hP : Sound (ideal v w) P) (hC : CleanDisk P.disk) {data : Option BigFiles}
    (hd : ∀ f, data = some f → f = toolFiles T sa) (hb : data.isSome = true → (P.disk (FileRef.file s (.bwt, none))).isSome = true) :
    ∃ es P', runSteps bytes s (Steps.bigBase data (some (toolFiles T sa)) ++ laterSteps t b) P = (es, some P') ∧
      CleanDisk P'.disk ∧ Ran (ideal v w) s P (baseRefs ++ outputsOf (laterSteps t b)) es P' := by
  have hdo : data.or (some (toolFiles T sa)) = some (toolFiles T sa) := by
    cases hdd : data with
    | none => rfl
    | some f => rw [hd f hdd]; rfl
  have hrest : ∃ es P', runSteps bytes s (Steps.bigBase data (some (toolFiles T sa))) P = (es, some P') ∧ Ran (ideal v w) s P baseRefs es P' := by
    have hGr : GuardsOK s P.disk (Steps.bwtRunsBig (some (toolFiles T sa))) := hC.steps .rIndex .sd Steps.bwtRuns (by simp [program, Steps.rIndex, Steps.base]) s
    have hGa : GuardsOK s P.disk Steps.alphabet := hC.steps .rIndex .sd Steps.alphabet (by simp [program, Steps.rIndex, Steps.base]) s
    have hGl : GuardsOK s P.disk Steps.bwtRle := hC.steps .rIndex .sd Steps.bwtRle (by simp [program, Steps.rIndex, Steps.base]) s
    unfold Steps.bigBase
    rw [hdo]
    cases hdd : data with
    | none =>
      refine run_ok (ideal_rateFree v w) _ [] P ?_ ?_ hP (by simp) ?_
      · intro st hs
        simp only [Option.isSome_none, Bool.false_eq_true, if_false, List.cons_append, List.nil_append, List.mem_cons, List.not_mem_nil, or_false] at hs
        rcases hs with rfl | rfl | rfl | rfl
        exacts [ok_bwtBig hT hw s, ok_bwtRunsBig hT hsa hn s, ok_alphabet, ok_bwtRle]
      · rw [checkSteps_bare]
        change checkSteps [] ([Steps.bwtBig none, Steps.bwtRunsBig none, Steps.alphabet, Steps.bwtRle].map CacheStep.bare) = true
        decide +kernel
      · intro st hs
        simp only [Option.isSome_none, Bool.false_eq_true, if_false, List.cons_append, List.nil_append, List.mem_cons, List.not_mem_nil, or_false] at hs
        rcases hs with rfl | rfl | rfl | rfl
        exacts [fun g hg => by simp [Steps.bwtBig] at hg, hGr, hGa, hGl]
    | some f =>
      have hb' := hb (by rw [hdd]; rfl)
      obtain ⟨es, P', h1, h2⟩ := run_ok (ideal_rateFree v w) (bytes := bytes) (s := s)
        [Steps.bwtRunsBig (some (toolFiles T sa)), Steps.alphabet, Steps.bwtRle] [(.bwt, none)] P
        (by
          intro st hs
          simp only [List.mem_cons, List.not_mem_nil, or_false] at hs
          rcases hs with rfl | rfl | rfl
          exacts [ok_bwtRunsBig hT hsa hn s, ok_alphabet, ok_bwtRle])
        (by
          rw [checkSteps_bare]
          change checkSteps [(.bwt, none)] ([Steps.bwtRunsBig none, Steps.alphabet, Steps.bwtRle].map CacheStep.bare) = true
          decide +kernel) hP
        (by intro r hr; rw [List.mem_singleton] at hr; subst hr; exact hb')
        (by
          intro st hs
          simp only [List.mem_cons, List.not_mem_nil, or_false] at hs
          rcases hs with rfl | rfl | rfl
          exacts [hGr, hGa, hGl])
      refine ⟨es, P', h1, ?_⟩
      have := (Ran.refl (s := s) (outs := [(.bwt, none)]) hP (by intro r hr; rw [List.mem_singleton] at hr; subst hr; exact hb')).trans h2
      exact this
  obtain ⟨es, P₁, h1, R1⟩ := hrest
  have hcl : closedSteps [] [Steps.bwt, Steps.bwtRuns, Steps.alphabet, Steps.bwtRle] = true := by decide +kernel
  have hclosed : Closed baseRefs := by
    have := closedSteps_ok _ [] (fun _ _ _ _ h => by simp at h) hcl _ [] (List.append_nil _).symm
    exact this
  have hC1 := hC.after hclosed (by unfold PsiPaired; decide +kernel) R1
  obtain ⟨es', P', h2, R2⟩ := later_run h t b s R1.sound hC1 R1.all
  have R := R1.trans R2
  refine ⟨es ++ es', P', by rw [runSteps_append bytes s _ _ P h1, h2], ?_, R⟩
  have hcl2 : Closed (baseRefs ++ outputsOf (laterSteps t b)) :=
    closedSteps_ok (laterSteps t b) baseRefs hclosed (by cases t <;> cases b <;> decide +kernel) _ [] (List.append_nil _).symm
  refine hC.after hcl2 ?_ R
  unfold PsiPaired
  cases t <;> cases b <;> decide +kernel

end
end Sri

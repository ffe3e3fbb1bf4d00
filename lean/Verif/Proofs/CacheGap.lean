import Verif.Proofs.CacheMend
/-! # The samples of psi runs without their marks, and the marks' validity without the areas, stay so -/
namespace Sri
set_option autoImplicit false

section
variable {bytes : List Nat}

/-- what holds of a process before a construction and is kept by each of its steps holds after it, and its stores are of the kind `safe` -/
theorem run_kept (J : Process → Prop) (safe : CacheEvent → Prop) (s : Nat) : ∀ (steps : List CacheStep) (P : Process),
    (∀ st ∈ steps, ∀ (Q : Process) (es : List CacheEvent), J Q → ¬ (st.guards.any (fun r => Q.has (r.file s)) = true) → st.run bytes s Q = some es →
      (∀ e ∈ es, safe e) ∧ J (st.after s es Q)) → J P →
    (∀ e ∈ (runSteps bytes s steps P).1, safe e) ∧ ∀ P', (runSteps bytes s steps P).2 = some P' → J P'
  | [], P, _, hP => ⟨by simp [runSteps], fun P' h => by cases h; exact hP⟩
  | st :: steps, P, hst, hP => by
    have ih := fun (Q : Process) (hQ : J Q) => run_kept J safe s steps Q (fun st h => hst st (List.mem_cons_of_mem _ h)) hQ
    rw [runSteps_cons]
    split
    · exact ih P hP
    · rename_i hng
      cases hr : st.run bytes s P with
      | none => exact ⟨by simp, fun P' h => by cases h⟩
      | some es =>
        dsimp only
        obtain ⟨k1, k2⟩ := hst st List.mem_cons_self P es hP hng hr
        obtain ⟨h1, h2⟩ := ih _ k2
        refine ⟨fun e he => ?_, h2⟩
        rcases List.mem_append.1 he with he | he
        · exact k1 e he
        · exact h1 e he

/-- a file after some stores was there before or is what the last of its stores left -/
theorem applyAll_origin (es : List CacheEvent) {D : Disk} {f : File} {x : Item} (h : (D.applyAll es) f = some (some x)) :
    D f = some (some x) ∨ CacheEvent.closed f x ∈ es := by
  induction es generalizing D with
  | nil => exact Or.inl h
  | cons e es ih =>
    have : D.applyAll (e :: es) = (D.apply e).applyAll es := rfl
    rw [this] at h
    rcases ih h with h | h
    · cases e with
      | opened g =>
        simp only [Disk.apply] at h
        split at h
        · cases h
        · exact Or.inl h
      | closed g y =>
        simp only [Disk.apply] at h
        split at h
        · rename_i hf
          cases h
          subst hf
          exact Or.inr List.mem_cons_self
        · exact Or.inl h
    · exact Or.inr (List.mem_cons_of_mem _ h)

theorem run_events {st : CacheStep} {s : Nat} {P : Process} {es : List CacheEvent} (hr : st.run bytes s P = some es) :
    ∃ xs ys, st.inputs.mapM (CacheRead.run s P) = some xs ∧ st.compute bytes s xs = some ys ∧ es = storeEvents s st.outputs ys := by
  unfold CacheStep.run at hr
  simp only [Option.bind_eq_bind, Option.bind_eq_some_iff, Option.pure_def, Option.some.injEq] at hr
  obtain ⟨xs, h1, ys, h2, h3⟩ := hr
  exact ⟨xs, ys, h1, h2, h3.symm⟩

theorem run_file {st : CacheStep} {s : Nat} {P : Process} {es : List CacheEvent} (hr : st.run bytes s P = some es) {e : CacheEvent} (he : e ∈ es) :
    ∃ r ∈ st.outputs.flatten, r.file s = e.file := by
  obtain ⟨xs, ys, -, -, rfl⟩ := run_events hr
  exact storeEvents_only s _ _ e he

/-! ## Samples of psi runs without marks -/

/-- The samples of psi runs are there and the name by which the marks' step looks up their indices leads nowhere; what there is of the marks
    holds none; there is no validity of marks. -/
structure PsiGap (s : Nat) (P : Process) : Prop where
  there : (P.disk (FileRef.file s (.subPsiFirst, some .ints))).isSome = true
  absent : P.disk (FileRef.file s (.subPsiIdx, none)) = none
  named : P.fileMap (FileRef.file s (.subPsiIdx, none)) = none
  map : MapOK P.fileMap
  ints : ∀ x, P.disk (FileRef.file s (.subPsiLast, some .ints)) = some (some x) → x = .ints []
  bits : ∀ x, P.disk (FileRef.file s (.subPsiLast, some .sdVector)) = some (some x) → ∃ n, x = .sdVector (List.replicate n false)
  valid : ∀ ty, P.disk (FileRef.file s (.validPsiMark, ty)) = none

/-- the stores that keep it -/
def PsiSafe (s : Nat) (e : CacheEvent) : Prop :=
  e.file ≠ FileRef.file s (.subPsiIdx, none) ∧ (∀ ty, e.file ≠ FileRef.file s (.validPsiMark, ty)) ∧
    (∀ x, e = .closed (FileRef.file s (.subPsiLast, some .ints)) x → x = .ints []) ∧
    ∀ x, e = .closed (FileRef.file s (.subPsiLast, some .sdVector)) x → ∃ n, x = .sdVector (List.replicate n false)

theorem PsiGap.disk {s : Nat} {P : Process} (h : PsiGap s P) {es : List CacheEvent} (hes : ∀ e ∈ es, PsiSafe s e) {m : File → Option File}
    (hm : MapOK m) (hn : m (FileRef.file s (.subPsiIdx, none)) = none) : PsiGap s ⟨P.disk.applyAll es, m⟩ where
  there := (applyAll_exists _ _ _).2 (Or.inl h.there)
  absent := by
    rw [← Option.not_isSome_iff_eq_none, applyAll_exists]
    rintro (h1 | ⟨e, he, hf⟩)
    · rw [h.absent] at h1; cases h1
    · exact (hes e he).1 hf
  named := hn
  map := hm
  ints := fun x hx => by
    rcases applyAll_origin _ hx with h1 | h1
    · exact h.ints x h1
    · exact (hes _ h1).2.2.1 x rfl
  bits := fun x hx => by
    rcases applyAll_origin _ hx with h1 | h1
    · exact h.bits x h1
    · exact (hes _ h1).2.2.2 x rfl
  valid := fun ty => by
    rw [← Option.not_isSome_iff_eq_none, applyAll_exists]
    rintro (h1 | ⟨e, he, hf⟩)
    · rw [h.valid ty] at h1; cases h1
    · exact (hes e he).2.1 ty hf

/-- a step that has nothing to do with the samples, the marks and their validity -/
def psiQuiet (st : CacheStep) : Bool :=
  st.aliases.isEmpty && st.outputs.flatten.all (fun r => decide (r ≠ (.subPsiIdx, none) ∧ r.1 ≠ .validPsiMark ∧ r ≠ (.subPsiLast, some .ints) ∧
    r ≠ (.subPsiLast, some .sdVector)))

theorem psi_steps (t : IndexType) (b : BvKind) : ∀ st ∈ program t b, st = Steps.samplesPsi ∨ st = Steps.marksPsi ∨
    st = Steps.bitVector .subPsiLast .sd (.subPsiLast, some .ints) (.bwt, none) ∨ st = Steps.validityPsi ∨
    st = Steps.validBits .validPsiMark (.validPsiMark, some .ints) (.subPsiLast, some .ints) ∨ psiQuiet st = true := by
  have quiet : ∀ l : List CacheStep, l.all psiQuiet = true → ∀ st ∈ l, st = Steps.samplesPsi ∨ st = Steps.marksPsi ∨
      st = Steps.bitVector .subPsiLast .sd (.subPsiLast, some .ints) (.bwt, none) ∨ st = Steps.validityPsi ∨
      st = Steps.validBits .validPsiMark (.validPsiMark, some .ints) (.subPsiLast, some .ints) ∨ psiQuiet st = true :=
    fun l hl st hst => by
      have := List.all_eq_true.1 hl st hst
      tauto
  have base : ∀ st ∈ Steps.srCSAWithPsiRun b, st = Steps.samplesPsi ∨ st = Steps.marksPsi ∨
      st = Steps.bitVector .subPsiLast .sd (.subPsiLast, some .ints) (.bwt, none) ∨ st = Steps.validityPsi ∨
      st = Steps.validBits .validPsiMark (.validPsiMark, some .ints) (.subPsiLast, some .ints) ∨ psiQuiet st = true := by
    intro st hst
    unfold Steps.srCSAWithPsiRun at hst
    rcases List.mem_append.1 hst with hst | hst
    · rcases List.mem_append.1 hst with hst | hst
      · exact quiet _ (by decide +kernel) st hst
      · simp only [List.mem_cons, List.not_mem_nil, or_false] at hst
        tauto
    · simp only [List.mem_cons, List.not_mem_nil, or_false] at hst
      rcases hst with rfl | hst
      · tauto
      · refine quiet [Steps.markLinksPsi, Steps.bitVector .subPsiIdx b (.subPsiIdx, some .ints) (.psiFirst, some .ints), Steps.cumulativePsi]
          (by cases b <;> decide +kernel) st ?_
        simp only [List.mem_cons, List.not_mem_nil, or_false]
        tauto
  have valid : ∀ st ∈ Steps.psiValidMark, st = Steps.samplesPsi ∨ st = Steps.marksPsi ∨
      st = Steps.bitVector .subPsiLast .sd (.subPsiLast, some .ints) (.bwt, none) ∨ st = Steps.validityPsi ∨
      st = Steps.validBits .validPsiMark (.validPsiMark, some .ints) (.subPsiLast, some .ints) ∨ psiQuiet st = true := by
    intro st hst
    simp only [Steps.psiValidMark, List.mem_cons, List.not_mem_nil, or_false] at hst
    tauto
  cases t
  case srCSAWithPsiRun => exact base
  case psiValidMark =>
    intro st hst
    rcases List.mem_append.1 hst with hst | hst
    · exact base st hst
    · exact valid st hst
  case psiValidArea =>
    intro st hst
    rcases List.mem_append.1 hst with hst | hst
    · rcases List.mem_append.1 hst with hst | hst
      · exact base st hst
      · exact valid st hst
    · exact quiet _ (by decide +kernel) st hst
  all_goals exact quiet _ (by cases b <;> decide +kernel)

theorem bitVectorFromInts_nil (n : Nat) : bitVectorFromInts [] n false = some (List.replicate n false) := by
  unfold bitVectorFromInts
  simp only [List.all_nil, assertC, if_true, Option.bind_eq_bind, Option.bind_some, Option.pure_def, List.not_mem_nil, if_false, Option.some.injEq]
  rw [List.map_const', List.length_range]

theorem validityInts_nil (marks : List Nat) : Steps.validityInts marks [] = none := by
  unfold Steps.validityInts
  have : (sortBy (fun x => x) ([] : List Nat)).reverse = [] := rfl
  rw [this]
  unfold computeSubmarksValidity
  cases marks.reverse <;> rfl

theorem mapM_cons_some {α β : Type} {f : α → Option β} {a : α} {l : List α} {ys : List β} (h : (a :: l).mapM f = some ys) :
    ∃ y ys', f a = some y ∧ l.mapM f = some ys' ∧ ys = y :: ys' := by
  rw [List.mapM_cons] at h
  simp only [Option.bind_eq_bind, Option.bind_eq_some_iff, Option.pure_def, Option.some.injEq] at h
  obtain ⟨y, h1, ys', h2, rfl⟩ := h
  exact ⟨y, ys', h1, h2, rfl⟩

theorem mapM_nil_some {α β : Type} {f : α → Option β} {ys : List β} (h : ([] : List α).mapM f = some ys) : ys = [] := by
  cases h; rfl

/-- the validity of marks is not computed while they are missing -/
theorem PsiGap.validity {s : Nat} {P : Process} (h : PsiGap s P) : Steps.validityPsi.run bytes s P = none := by
  cases hr : Steps.validityPsi.run bytes s P with
  | none => rfl
  | some es =>
    exfalso
    obtain ⟨xs, ys, h1, h2, -⟩ := run_events hr
    simp only [Steps.validityPsi] at h1 h2
    obtain ⟨x, xs1, -, k1, rfl⟩ := mapM_cons_some h1
    obtain ⟨y, xs2, e2, k2, rfl⟩ := mapM_cons_some k1
    cases mapM_nil_some k2
    have hy : y = .ints [] := by
      simp only [CacheRead.run] at e2
      rw [h.map.fileName (by decide)] at e2
      cases hd : P.disk (FileRef.file s (.subPsiLast, some .ints)) with
      | none => rw [hd] at e2; cases e2; rfl
      | some c =>
        rw [hd] at e2
        dsimp only at e2
        subst e2
        exact h.ints y hd
    subst hy
    cases x <;> dsimp only at h2 <;> try cases h2
    rw [validityInts_nil] at h2
    cases h2

theorem psiGap_step (t : IndexType) (b : BvKind) {s₀ s : Nat} : ∀ st ∈ program t b, ∀ (P : Process) (es : List CacheEvent), PsiGap s₀ P →
    ¬ (st.guards.any (fun r => P.has (r.file s)) = true) → st.run bytes s P = some es → (∀ e ∈ es, PsiSafe s₀ e) ∧ PsiGap s₀ (st.after s es P) := by
  intro st hst P es hP hng hr
  have rest : (∀ e ∈ es, PsiSafe s₀ e) → MapOK (st.after s es P).fileMap → (st.after s es P).fileMap (FileRef.file s₀ (.subPsiIdx, none)) = none →
      (∀ e ∈ es, PsiSafe s₀ e) ∧ PsiGap s₀ (st.after s es P) := fun h1 h2 h3 => ⟨h1, hP.disk h1 h2 h3⟩
  have noAlias : st.aliases = [] → (st.after s es P).fileMap = P.fileMap := fun h => by unfold CacheStep.after; rw [h]; rfl
  have ns : ∀ (n : FileName) (ty : Option ItemType), n.key.1 = true → s ≠ s₀ → ∀ r : FileRef, r.file s ≠ FileRef.file s₀ (n, ty) := by
    intro n ty hk hs r e
    obtain ⟨rfl, h1⟩ := file_inj e
    exact hs (h1 hk)
  have away : s ≠ s₀ → ∀ e ∈ es, PsiSafe s₀ e := by
    intro hs e he
    obtain ⟨r, -, hr'⟩ := run_file hr he
    refine ⟨?_, fun ty => ?_, fun x hx => ?_, fun x hx => ?_⟩
    · rw [← hr']; exact ns _ _ rfl hs r
    · rw [← hr']; exact ns _ _ rfl hs r
    · subst hx; exact absurd hr' (ns _ _ rfl hs r)
    · subst hx; exact absurd hr' (ns _ _ rfl hs r)
  rcases psi_steps t b st hst with rfl | rfl | rfl | rfl | rfl | hq
  · -- the samples: skipped at the rate, and elsewhere at another rate
    by_cases hs : s = s₀
    · subst hs
      refine absurd ?_ hng
      simp only [Steps.samplesPsi, List.any_cons, List.any_nil, Bool.or_false]
      rw [has_eq hP.map (by decide)]
      exact hP.there
    · refine rest (away hs) (mapOK_after hP.map (by decide)) ?_
      simp only [CacheStep.after, Steps.samplesPsi, List.foldl_cons, List.foldl_nil]
      rw [if_neg (fun e => hs ((file_inj e).2 rfl).symm)]
      exact hP.named
  · -- the marks
    refine rest ?_ (by rw [noAlias rfl]; exact hP.map) (by rw [noAlias rfl]; exact hP.named)
    by_cases hs : s = s₀
    · subst hs
      obtain ⟨xs, ys, h1, h2, rfl⟩ := run_events hr
      simp only [Steps.marksPsi] at h1 h2
      obtain ⟨x, xs1, e1, k1, rfl⟩ := mapM_cons_some h1
      obtain ⟨y, xs2, -, k2, rfl⟩ := mapM_cons_some k1
      obtain ⟨z, xs3, -, k3, rfl⟩ := mapM_cons_some k2
      cases mapM_nil_some k3
      have hx : x = .ints [] := by
        simp only [CacheRead.run, Process.fileName] at e1
        rw [hP.named, Option.getD_none, hP.absent] at e1
        cases e1; rfl
      subst hx
      have hy : ys = [.ints []] := by
        cases y <;> try cases h2
        cases z <;> try (cases h2; done)
        cases h2
        rfl
      subst hy
      intro e he
      simp only [storeEvents, Steps.marksPsi, List.map_cons, List.map_nil, List.length_cons, List.length_nil, List.take_succ_cons, List.take_zero,
        List.zip_cons_cons, List.zip_nil_right, List.cons_append, List.nil_append, List.mem_cons, List.not_mem_nil, or_false] at he
      rcases he with rfl | rfl
      · refine ⟨fun e => ?_, fun ty e => ?_, fun x hx => (by cases hx), fun x hx => (by cases hx)⟩
        · exact absurd (file_inj e).1 (by decide)
        · have := (file_inj e).1; simp at this
      · refine ⟨fun e => ?_, fun ty e => ?_, fun x hx => by cases hx; rfl, fun x hx => ?_⟩
        · exact absurd (file_inj e).1 (by decide)
        · have := (file_inj e).1; simp at this
        · have := (file_inj (CacheEvent.closed.inj hx).1).1; simp at this
    · exact away hs
  · -- the bit vector of the marks
    refine rest ?_ (by rw [noAlias rfl]; exact hP.map) (by rw [noAlias rfl]; exact hP.named)
    by_cases hs : s = s₀
    · subst hs
      obtain ⟨xs, ys, h1, h2, rfl⟩ := run_events hr
      simp only [Steps.bitVector] at h1 h2
      obtain ⟨x, xs1, -, k1, rfl⟩ := mapM_cons_some h1
      obtain ⟨y, xs2, e2, k2, rfl⟩ := mapM_cons_some k1
      cases mapM_nil_some k2
      have hy : y = .ints [] := by
        simp only [CacheRead.run] at e2
        rw [hP.map.fileName (by decide)] at e2
        obtain ⟨c, hc, hcy⟩ := Option.bind_eq_some_iff.1 e2
        cases hcy
        exact hP.ints y hc
      subst hy
      obtain ⟨n, hn⟩ : ∃ n, ys = [.sdVector (List.replicate n false), .sdRank none, .sdSelect none] := by
        cases x <;> try (cases h2; done)
        dsimp only at h2
        rw [bitVectorFromInts_nil] at h2
        cases h2
        exact ⟨_, rfl⟩
      subst hn
      intro e he
      refine ⟨fun e1 => ?_, fun ty e1 => ?_, fun x hx => ?_, fun x hx => ?_⟩
      · obtain ⟨r, hr1, hr2⟩ := storeEvents_only s _ _ e he
        rw [e1] at hr2
        obtain ⟨rfl, -⟩ := file_inj hr2
        exact absurd hr1 (by decide +kernel)
      · obtain ⟨r, hr1, hr2⟩ := storeEvents_only s _ _ e he
        rw [e1] at hr2
        obtain ⟨rfl, -⟩ := file_inj hr2
        simp [Steps.bitVector] at hr1
      · obtain ⟨r, hr1, hr2⟩ := storeEvents_only s _ _ e he
        rw [hx] at hr2
        obtain ⟨rfl, -⟩ := file_inj hr2
        exact absurd hr1 (by decide +kernel)
      · subst hx
        refine ⟨n, ?_⟩
        simp only [storeEvents, Steps.bitVector, BvKind.ty, BvKind.rankTy, BvKind.selectTy, List.map_cons, List.map_nil, List.length_cons, List.length_nil,
          List.take_succ_cons, List.take_zero, List.drop_succ_cons, List.drop_zero, List.zip_cons_cons, List.zip_nil_right, List.cons_append,
          List.nil_append, List.mem_cons, List.not_mem_nil, or_false] at he
        rcases he with he | he | he | he | he | he
        · cases he
        · exact (CacheEvent.closed.inj he).2
        · cases he
        · have := (file_inj (CacheEvent.closed.inj he).1).1; simp at this
        · cases he
        · have := (file_inj (CacheEvent.closed.inj he).1).1; simp at this
    · exact away hs
  · -- the validity of the marks
    by_cases hs : s = s₀
    · subst hs
      rw [hP.validity] at hr
      cases hr
    · exact rest (away hs) (by rw [noAlias rfl]; exact hP.map) (by rw [noAlias rfl]; exact hP.named)
  · by_cases hs : s = s₀
    · subst hs
      obtain ⟨xs, ys, h1, -, -⟩ := run_events hr
      simp only [Steps.validBits] at h1
      obtain ⟨x, xs1, -, k1, rfl⟩ := mapM_cons_some h1
      obtain ⟨y, xs2, e2, k2, rfl⟩ := mapM_cons_some k1
      simp only [CacheRead.run] at e2
      rw [hP.map.fileName (by decide), hP.valid] at e2
      cases e2
    · exact rest (away hs) (by rw [noAlias rfl]; exact hP.map) (by rw [noAlias rfl]; exact hP.named)
  · -- all others
    unfold psiQuiet at hq
    rw [Bool.and_eq_true, List.isEmpty_iff, List.all_eq_true] at hq
    refine rest ?_ (by rw [noAlias hq.1]; exact hP.map) (by rw [noAlias hq.1]; exact hP.named)
    intro e he
    obtain ⟨r, hr1, hr2⟩ := run_file hr he
    obtain ⟨q1, q2, q3, q4⟩ := of_decide_eq_true (hq.2 r hr1)
    refine ⟨fun e1 => ?_, fun ty e1 => ?_, fun x hx => ?_, fun x hx => ?_⟩
    · rw [e1] at hr2; exact q1 (file_inj hr2).1
    · rw [e1] at hr2; exact q2 (by rw [(file_inj hr2).1])
    · rw [hx] at hr2; exact absurd (file_inj hr2).1 q3
    · rw [hx] at hr2; exact absurd (file_inj hr2).1 q4

/-! ## The validity of marks without the areas -/

/-- the integers of the validity of marks are there, what there is of the areas is empty -/
structure AreaGap (s : Nat) (P : Process) : Prop where
  there : (P.disk (FileRef.file s (.validPsiMark, some .ints))).isSome = true
  areas : ∀ x, P.disk (FileRef.file s (.validPsiArea, some .ints)) = some (some x) → x = .ints []
  map : MapOK P.fileMap

def AreaSafe (s : Nat) (e : CacheEvent) : Prop := ∀ x, e = .closed (FileRef.file s (.validPsiArea, some .ints)) x → x = .ints []

theorem AreaGap.disk {s : Nat} {P : Process} (h : AreaGap s P) {es : List CacheEvent} (hes : ∀ e ∈ es, AreaSafe s e) {m : File → Option File}
    (hm : MapOK m) : AreaGap s ⟨P.disk.applyAll es, m⟩ where
  there := (applyAll_exists _ _ _).2 (Or.inl h.there)
  areas := fun x hx => by
    rcases applyAll_origin _ hx with h1 | h1
    · exact h.areas x h1
    · exact hes _ h1 x rfl
  map := hm

theorem area_steps (t : IndexType) (b : BvKind) : ∀ st ∈ program t b, st = Steps.validityPsi ∨ st = Steps.areasPsi ∨
    ((.validPsiArea, some .ints) : FileRef) ∉ st.outputs.flatten := by
  have quiet : ∀ l : List CacheStep, l.all (fun st => decide (((.validPsiArea, some .ints) : FileRef) ∉ st.outputs.flatten)) = true → ∀ st ∈ l,
      st = Steps.validityPsi ∨ st = Steps.areasPsi ∨ ((.validPsiArea, some .ints) : FileRef) ∉ st.outputs.flatten :=
    fun l hl st hst => Or.inr (Or.inr (of_decide_eq_true (List.all_eq_true.1 hl st hst)))
  have valid : ∀ st ∈ Steps.psiValidMark, st = Steps.validityPsi ∨ st = Steps.areasPsi ∨ ((.validPsiArea, some .ints) : FileRef) ∉ st.outputs.flatten := by
    intro st hst
    rcases List.mem_cons.1 hst with rfl | hst
    · exact Or.inl rfl
    · exact quiet _ (by decide +kernel) st hst
  cases t
  case psiValidMark =>
    intro st hst
    rcases List.mem_append.1 hst with hst | hst
    · exact quiet _ (by cases b <;> decide +kernel) st hst
    · exact valid st hst
  case psiValidArea =>
    intro st hst
    rcases List.mem_append.1 hst with hst | hst
    · rcases List.mem_append.1 hst with hst | hst
      · exact quiet _ (by cases b <;> decide +kernel) st hst
      · exact valid st hst
    · exact Or.inr (Or.inl (List.mem_singleton.1 hst))
  all_goals exact quiet _ (by cases b <;> decide +kernel)

theorem areaGap_step (t : IndexType) (b : BvKind) {s₀ s : Nat} : ∀ st ∈ program t b, ∀ (P : Process) (es : List CacheEvent), AreaGap s₀ P →
    ¬ (st.guards.any (fun r => P.has (r.file s)) = true) → st.run bytes s P = some es → (∀ e ∈ es, AreaSafe s₀ e) ∧ AreaGap s₀ (st.after s es P) := by
  intro st hst P es hP hng hr
  have hm : MapOK (st.after s es P).fileMap := mapOK_after hP.map (guarded_all t b .psiLast (by decide) st hst).2
  suffices h : ∀ e ∈ es, AreaSafe s₀ e from ⟨h, hP.disk h hm⟩
  intro e he x hx
  obtain ⟨r, hr1, hr2⟩ := run_file hr he
  rw [hx] at hr2
  obtain ⟨rfl, hs⟩ := file_inj hr2
  obtain rfl := hs rfl
  rcases area_steps t b st hst with rfl | rfl | hq
  · refine absurd ?_ hng
    simp only [Steps.validityPsi, List.any_cons, List.any_nil, Bool.or_false, Bool.or_eq_true]
    exact Or.inr ((has_eq hP.map (by decide)).trans hP.there)
  · obtain ⟨xs, ys, h1, h2, rfl⟩ := run_events hr
    simp only [Steps.areasPsi] at h1 h2
    obtain ⟨y, xs1, e1, k1, rfl⟩ := mapM_cons_some h1
    cases mapM_nil_some k1
    simp only [Steps.areasPsi, List.any_cons, List.any_nil, Bool.or_false] at hng
    rw [has_eq hP.map (by decide), Bool.not_eq_true, Option.isSome_eq_false_iff, Option.isNone_iff_eq_none] at hng
    simp only [CacheRead.run] at e1
    rw [hP.map.fileName (by decide), hng] at e1
    cases e1
    cases h2
    simp only [storeEvents, Steps.areasPsi, List.map_cons, List.map_nil, List.length_cons, List.length_nil, List.take_succ_cons, List.take_zero,
      List.zip_cons_cons, List.zip_nil_right, List.cons_append, List.nil_append, List.mem_cons, List.not_mem_nil, or_false] at he
    rcases he with rfl | rfl
    · cases hx
    · exact (CacheEvent.closed.inj hx).2.symm
  · exact absurd hr1 hq

end
end Sri

import Verif.Proofs.ConfigKeys
/-! # Where constructions store alphabets and psi, under any names -/
namespace Sri
set_option autoImplicit false

/-- a step stores no alphabet -/
def NoAlphabet (st : CacheStep) : Prop := ∀ bytes s xs ys, st.compute bytes s xs = some ys → ∀ y ∈ ys, y.type ≠ .alphabet

theorem noAlpha_text : NoAlphabet Steps.text := by
  intro bytes s xs ys h
  simp only [Steps.text] at h
  split at h <;> cases h <;> simp [Item.type]

theorem noAlpha_sa : NoAlphabet Steps.sa := by
  intro bytes s xs ys h
  simp only [Steps.sa] at h
  split at h <;> cases h <;> simp [Item.type]

theorem noAlpha_bwt : NoAlphabet Steps.bwt := by
  intro bytes s xs ys h
  simp only [Steps.bwt] at h
  split at h <;> cases h <;> simp [Item.type]

theorem noAlpha_bwtRuns : NoAlphabet Steps.bwtRuns := by
  intro bytes s xs ys h
  simp only [Steps.bwtRuns] at h
  split at h
  · obtain ⟨r, -, rfl⟩ := Option.map_eq_some_iff.1 h; simp [Item.type]
  · cases h

theorem noAlpha_bwtRle : NoAlphabet Steps.bwtRle := by
  intro bytes s xs ys h
  simp only [Steps.bwtRle] at h
  split at h
  · obtain ⟨r, -, rfl⟩ := Option.map_eq_some_iff.1 h; simp [Item.type]
  · cases h

theorem noAlpha_linksBackward : NoAlphabet Steps.linksBackward := by
  intro bytes s xs ys h
  simp only [Steps.linksBackward] at h
  split at h <;> cases h <;> simp [Item.type]

theorem noAlpha_bitVector (out : FileName) (b : BvKind) (src len : FileRef) : NoAlphabet (Steps.bitVector out b src len) := by
  intro bytes s xs ys h
  simp only [Steps.bitVector] at h
  split at h
  · obtain ⟨r, -, rfl⟩ := Option.map_eq_some_iff.1 h
    cases b <;> simp [Item.type]
  · cases h

theorem noAlpha_validBits (out : FileName) (src len : FileRef) : NoAlphabet (Steps.validBits out src len) := by
  intro bytes s xs ys h
  simp only [Steps.validBits] at h
  split at h
  · obtain ⟨r, -, rfl⟩ := Option.map_eq_some_iff.1 h; simp [Item.type]
  · cases h

theorem noAlpha_sorted (out : FileName) (src : FileRef) : NoAlphabet (Steps.sorted out src) := by
  intro bytes s xs ys h
  simp only [Steps.sorted] at h
  split at h <;> cases h <;> simp [Item.type]

theorem noAlpha_samplesBackward : NoAlphabet Steps.samplesBackward := by
  intro bytes s xs ys h
  simp only [Steps.samplesBackward] at h
  split at h
  · simp only [Option.bind_eq_bind, Option.bind_eq_some_iff, Option.pure_def, Option.some.injEq] at h
    obtain ⟨_, -, _, -, rfl⟩ := h; simp [Item.type]
  · cases h

theorem noAlpha_marksBackward : NoAlphabet Steps.marksBackward := by
  intro bytes s xs ys h
  simp only [Steps.marksBackward] at h
  split at h
  · rw [Option.bind_eq_bind, Option.bind_eq_some_iff] at h
    obtain ⟨_, -, h⟩ := h
    cases h; simp [Item.type]
  · cases h

theorem noAlpha_validityBackward : NoAlphabet Steps.validityBackward := by
  intro bytes s xs ys h
  simp only [Steps.validityBackward] at h
  split at h
  · simp only [Option.bind_eq_bind, Option.bind_eq_some_iff, Option.pure_def, Option.some.injEq] at h
    obtain ⟨_, -, _, -, _, -, rfl⟩ := h; simp [Item.type]
  · cases h

theorem noAlpha_psi : NoAlphabet Steps.psi := by
  intro bytes s xs ys h
  simp only [Steps.psi] at h
  split at h
  · simp only [Option.bind_eq_bind, Option.bind_eq_some_iff, Option.pure_def, Option.some.injEq] at h
    obtain ⟨_, -, _, -, rfl⟩ := h; simp [Item.type]
  · cases h

theorem noAlpha_linksForward : NoAlphabet Steps.linksForward := by
  intro bytes s xs ys h
  simp only [Steps.linksForward] at h
  split at h
  · obtain ⟨r, -, rfl⟩ := Option.map_eq_some_iff.1 h; simp [Item.type]
  · cases h

theorem noAlpha_samplesForward : NoAlphabet Steps.samplesForward := by
  intro bytes s xs ys h
  simp only [Steps.samplesForward] at h
  split at h
  · simp only [Option.bind_eq_bind, Option.bind_eq_some_iff, Option.pure_def, Option.some.injEq] at h
    obtain ⟨_, -, _, -, rfl⟩ := h; simp [Item.type]
  · cases h

theorem noAlpha_marksForward : NoAlphabet Steps.marksForward := by
  intro bytes s xs ys h
  simp only [Steps.marksForward] at h
  split at h
  · rw [Option.bind_eq_bind, Option.bind_eq_some_iff] at h
    obtain ⟨_, -, h⟩ := h
    cases h; simp [Item.type]
  · cases h

theorem noAlpha_samplesPosition : NoAlphabet Steps.samplesPosition := by
  intro bytes s xs ys h
  simp only [Steps.samplesPosition] at h
  split at h
  · obtain ⟨r, -, rfl⟩ := Option.map_eq_some_iff.1 h; simp [Item.type]
  · cases h

theorem noAlpha_sortedByAlphabet : NoAlphabet Steps.sortedByAlphabet := by
  intro bytes s xs ys h
  simp only [Steps.sortedByAlphabet] at h
  split at h
  · obtain ⟨r, -, rfl⟩ := Option.map_eq_some_iff.1 h; simp [Item.type]
  · cases h

theorem noAlpha_samplesByAlphabet : NoAlphabet Steps.samplesByAlphabet := by
  intro bytes s xs ys h
  simp only [Steps.samplesByAlphabet] at h
  split at h
  · simp only [Option.bind_eq_bind, Option.bind_eq_some_iff, Option.pure_def, Option.some.injEq] at h
    obtain ⟨_, -, _, -, _, -, rfl⟩ := h; simp [Item.type]
  · cases h

theorem noAlpha_validityForward : NoAlphabet Steps.validityForward := by
  intro bytes s xs ys h
  simp only [Steps.validityForward] at h
  split at h
  · simp only [Option.bind_eq_bind, Option.bind_eq_some_iff, Option.pure_def, Option.some.injEq] at h
    obtain ⟨_, -, _, -, rfl⟩ := h; simp [Item.type]
  · cases h

theorem noAlpha_psiRuns : NoAlphabet Steps.psiRuns := by
  intro bytes s xs ys h
  simp only [Steps.psiRuns] at h
  split at h
  · simp only [Option.bind_eq_bind, Option.bind_eq_some_iff, Option.pure_def, Option.some.injEq] at h
    obtain ⟨_, -, _, -, rfl⟩ := h; simp [Item.type]
  · cases h

theorem noAlpha_psiLinks : NoAlphabet Steps.psiLinks := by
  intro bytes s xs ys h
  simp only [Steps.psiLinks] at h
  split at h
  · obtain ⟨r, -, rfl⟩ := Option.map_eq_some_iff.1 h; simp [Item.type]
  · cases h

theorem noAlpha_samplesPsi : NoAlphabet Steps.samplesPsi := by
  intro bytes s xs ys h
  simp only [Steps.samplesPsi] at h
  split at h
  · simp only [Option.bind_eq_bind, Option.bind_eq_some_iff, Option.pure_def, Option.some.injEq] at h
    obtain ⟨_, -, _, -, rfl⟩ := h; simp [Item.type]
  · cases h

theorem noAlpha_marksPsi : NoAlphabet Steps.marksPsi := by
  intro bytes s xs ys h
  simp only [Steps.marksPsi] at h
  split at h
  · obtain ⟨r, -, rfl⟩ := Option.map_eq_some_iff.1 h; simp [Item.type]
  · cases h

theorem noAlpha_markLinksPsi : NoAlphabet Steps.markLinksPsi := by
  intro bytes s xs ys h
  simp only [Steps.markLinksPsi] at h
  split at h <;> cases h <;> simp [Item.type]

theorem noAlpha_cumulativePsi : NoAlphabet Steps.cumulativePsi := by
  intro bytes s xs ys h
  simp only [Steps.cumulativePsi] at h
  split at h
  · obtain ⟨r, -, rfl⟩ := Option.map_eq_some_iff.1 h; simp [Item.type]
  · cases h

theorem noAlpha_validityPsi : NoAlphabet Steps.validityPsi := by
  intro bytes s xs ys h
  simp only [Steps.validityPsi] at h
  split at h
  · simp only [Option.bind_eq_bind, Option.bind_eq_some_iff, Option.pure_def, Option.some.injEq] at h
    obtain ⟨_, -, rfl⟩ := h; simp [Item.type]
  · cases h

theorem noAlpha_areasPsi : NoAlphabet Steps.areasPsi := by
  intro bytes s xs ys h
  simp only [Steps.areasPsi] at h
  split at h <;> cases h <;> simp [Item.type]

theorem noAlpha_all (t : IndexType) (b : BvKind) : ∀ st ∈ program t b, st = Steps.alphabet ∨ NoAlphabet st := by
  cases t <;>
    simp only [program, Steps.rIndex, Steps.srIndex, Steps.srIndexValid, Steps.rcsaWithBWTRun, Steps.rcsaWithPsiRun, Steps.srCSACommons, Steps.srCSA,
      Steps.srCSASlim, Steps.srCSAValid, Steps.srCSAWithPsiRun, Steps.psiValidMark, Steps.base, List.forall_mem_append, List.forall_mem_cons] <;>
    and_intros <;> (try exact fun _ h => absurd h List.not_mem_nil) <;>
    first
      | exact Or.inl trivial
      | exact Or.inr noAlpha_text | exact Or.inr noAlpha_sa | exact Or.inr noAlpha_bwt | exact Or.inr noAlpha_bwtRuns | exact Or.inr noAlpha_bwtRle
      | exact Or.inr noAlpha_linksBackward | exact Or.inr (noAlpha_bitVector _ _ _ _) | exact Or.inr (noAlpha_validBits _ _ _)
      | exact Or.inr (noAlpha_sorted _ _) | exact Or.inr noAlpha_samplesBackward | exact Or.inr noAlpha_marksBackward
      | exact Or.inr noAlpha_validityBackward | exact Or.inr noAlpha_psi | exact Or.inr noAlpha_linksForward | exact Or.inr noAlpha_samplesForward
      | exact Or.inr noAlpha_marksForward | exact Or.inr noAlpha_samplesPosition | exact Or.inr noAlpha_sortedByAlphabet
      | exact Or.inr noAlpha_samplesByAlphabet | exact Or.inr noAlpha_validityForward | exact Or.inr noAlpha_psiRuns | exact Or.inr noAlpha_psiLinks
      | exact Or.inr noAlpha_samplesPsi | exact Or.inr noAlpha_marksPsi | exact Or.inr noAlpha_markLinksPsi | exact Or.inr noAlpha_cumulativePsi
      | exact Or.inr noAlpha_validityPsi | exact Or.inr noAlpha_areasPsi

/-! ## An invariant of every history -/

/-- psi is stored under its fixed name only, an alphabet too, and file_map leads from names without a hash to names with one -/
structure FixedStores (P : Process) : Prop where
  psi : ∀ a, a ≠ "psi".toList → P.disk (a, some .psi) = none
  alphabet : ∀ f x, P.disk f = some (some x) → x.type = .alphabet → f = ("alphabet".toList, none)
  map : ∀ f g, P.fileMap f = some g → f.2 = none ∧ g.2 = some .ints

theorem keyed_psi (t : IndexType) (b : BvKind) : ∀ st ∈ keyedProgram t b, ∀ r ∈ st.step.outputs.flatten, r.2 = some .psi →
    st.keyed r.1 = false ∧ r.1.key = (false, "psi".toList) := by
  cases t <;> cases b <;> decide +kernel

theorem keyed_alias (t : IndexType) (b : BvKind) : ∀ st ∈ keyedProgram t b, ∀ q ∈ st.step.aliases, q.1.2 = none ∧ q.2.2 = some .ints := by
  cases t <;> cases b <;> decide +kernel

theorem keyed_alphabet (t : IndexType) (b : BvKind) : ∀ st ∈ keyedProgram t b, (.alphabet, none) ∈ st.step.outputs.flatten →
    st.keyed .alphabet = false := by
  cases t <;> cases b <;> decide +kernel

theorem place_hash {k : ConfigKeys} {s : Nat} {st : KeyedStep} {r : FileRef} {f : File} (h : st.place k s r = some f) : f.2 = r.2 := by
  unfold KeyedStep.place at h
  split at h
  · unfold ConfigKeys.file at h
    simp only [Option.bind_eq_bind, Option.bind_eq_some_iff, Option.pure_def, Option.some.injEq] at h
    obtain ⟨e, -, a, -, rfl⟩ := h
    rfl
  · cases h; rfl

theorem mapM_flatten {α β : Type} {f : α → Option β} : ∀ {l : List (List α)} {ys : List (List β)}, l.mapM (fun g => g.mapM f) = some ys →
    ∀ b ∈ ys.flatten, ∃ a ∈ l.flatten, f a = some b := by
  intro l ys h b hb
  obtain ⟨g, hg, hb⟩ := List.mem_flatten.1 hb
  obtain ⟨g', hg', h1⟩ := mapM_mem h g hg
  obtain ⟨a, ha, h2⟩ := mapM_mem h1 b hb
  exact ⟨a, List.mem_flatten.2 ⟨g', hg', ha⟩, h2⟩

theorem applyAll_item (es : List CacheEvent) {D : Disk} {f : File} {x : Item} (h : (D.applyAll es) f = some (some x)) :
    D f = some (some x) ∨ CacheEvent.closed f x ∈ es := by
  induction es generalizing D with
  | nil => exact Or.inl h
  | cons e es ih =>
    rcases ih (D := D.apply e) h with h | h
    · cases e with
      | opened g =>
        simp only [Disk.apply] at h
        split at h
        · cases h
        · exact Or.inl h
      | closed g y =>
        simp only [Disk.apply] at h
        split at h
        · rename_i hq
          cases h; subst hq
          exact Or.inr List.mem_cons_self
        · exact Or.inl h
    · exact Or.inr (List.mem_cons_of_mem _ h)

theorem step_stores {k : ConfigKeys} {bytes : List Nat} {s : Nat} {t : IndexType} {b : BvKind} {st : KeyedStep} (hst : st ∈ keyedProgram t b)
    {P P' : Process} {es : List CacheEvent} (h : st.run k bytes s P = some (es, P')) (hP : FixedStores P) : FixedStores P' := by
  have hfiles := run_files h
  obtain ⟨xs, ys, gs, al, h1, h2, h3, h4, rfl⟩ := run_inv h
  refine ⟨?_, ?_, ?_⟩
  · intro a ha
    change (P.disk.applyAll es) _ = none
    rw [← Option.not_isSome_iff_eq_none, applyAll_exists]
    rintro (hq | ⟨e, he, hf⟩)
    · rw [hP.psi a ha] at hq; cases hq
    · obtain ⟨r, hr, hp⟩ := hfiles e he
      have hh := place_hash hp
      rw [hf] at hh hp
      obtain ⟨h5, h6⟩ := keyed_psi t b st hst r hr hh.symm
      unfold KeyedStep.place at hp
      rw [h5, if_neg (by simp)] at hp
      unfold FileRef.file at hp
      rw [h6] at hp
      exact ha (congrArg Prod.fst (Option.some.inj hp)).symm
  · intro f x hx hty
    rcases applyAll_item es hx with hx | hx
    · exact hP.alphabet f x hx hty
    · rw [h4] at hx
      have hz := storeAt_closed gs ys f x hx
      have hmem : st.step ∈ program t b := by
        rw [← keyedProgram_step]; exact List.mem_map.2 ⟨st, hst, rfl⟩
      rcases noAlpha_all t b st.step hmem with ha | ha
      · obtain ⟨r, hr, hp⟩ := mapM_flatten h2 f (List.of_mem_zip hz).1
        have hr' : r = (.alphabet, none) := by rw [ha] at hr; simpa [Steps.alphabet] using hr
        have hk := keyed_alphabet t b st hst (by rw [ha]; simp [Steps.alphabet])
        subst hr'
        unfold KeyedStep.place at hp
        rw [hk, if_neg (by simp)] at hp
        exact (Option.some.inj hp).symm
      · exact absurd hty (ha bytes s xs ys h1 x (List.of_mem_zip hz).2)
  · have hal : ∀ q ∈ al, q.1.2 = none ∧ q.2.2 = some .ints := by
      intro q hq
      obtain ⟨q', hq', h5⟩ := mapM_mem h3 q hq
      simp only [Option.bind_eq_some_iff, Option.some.injEq] at h5
      obtain ⟨f, hf, g, hg, rfl⟩ := h5
      obtain ⟨x1, x2⟩ := keyed_alias t b st hst q' hq'
      exact ⟨(place_hash hf).trans x1, (place_hash hg).trans x2⟩
    have key : ∀ (l : List (File × File)) (m : File → Option File), (∀ f g, m f = some g → f.2 = none ∧ g.2 = some .ints) →
        (∀ q ∈ l, q.1.2 = none ∧ q.2.2 = some .ints) →
        ∀ f g, (l.foldl (fun m q => fun f => if f = q.1 then some q.2 else m f) m) f = some g → f.2 = none ∧ g.2 = some .ints := by
      intro l
      induction l with
      | nil => intro m hm _; exact hm
      | cons q l ih =>
        intro m hm hl
        refine ih _ ?_ (fun q' hq' => hl q' (List.mem_cons_of_mem _ hq'))
        intro f g hfg
        dsimp only at hfg
        split at hfg
        · rename_i hf
          cases hfg; subst hf
          exact hl q List.mem_cons_self
        · exact hm f g hfg
    exact key al _ hP.map hal

theorem run_fixedStores {k : ConfigKeys} {bytes : List Nat} {s : Nat} {t : IndexType} {b : BvKind} : ∀ (l : List KeyedStep),
    (∀ st ∈ l, st ∈ keyedProgram t b) → ∀ {P P' : Process}, runKeyed k bytes s l P = some P' → FixedStores P → FixedStores P'
  | [], _, P, P', h, hP => by cases h; exact hP
  | st :: l, hl, P, P', h, hP => by
    rw [runKeyed_cons] at h
    simp only [Option.bind_eq_some_iff] at h
    obtain ⟨c, -, h⟩ := h
    have hl' := fun st' hst' => hl st' (List.mem_cons_of_mem _ hst')
    cases c with
    | true => simp only [if_true] at h; exact run_fixedStores l hl' h hP
    | false =>
      simp only [Bool.false_eq_true, if_false, Option.bind_eq_some_iff] at h
      obtain ⟨⟨es, Q⟩, h1, h2⟩ := h
      exact run_fixedStores l hl' h2 (step_stores (hl st List.mem_cons_self) h1 hP)

end Sri

import Verif.Proofs.WordBuild
/-! # The construction in machine arithmetic: links, sub-sampling, validity, and the indexes -/
namespace Sri
set_option autoImplicit false

theorem sortIndices_lt {l : List Nat} {i : Nat} (h : i ∈ sortIndices l) : i < l.length := by
  rwa [(sortIndices_perm _).mem_iff, List.mem_range] at h

theorem linksPhiBackwardM_eq {marks : List Nat} (h : marks.length < 2 ^ 62) : linksPhiBackwardM marks = some (linksPhiBackward marks) := by
  have hW := W64_val
  unfold linksPhiBackwardM constructMarkToSampleLinks linksPhiBackward
  dsimp only
  rw [PartOK.mapM_some (g := fun k => (k + marks.length - 1) % marks.length)]
  · rfl
  · intro k hk
    have := sortIndices_lt hk
    rw [add64_eq (by omega), wsub_eq (by omega) (by omega), cmod, if_neg (by omega)]

theorem linksPhiForwardPsiM_eq {marks : List Nat} (h : marks.length < 2 ^ 62) : linksPhiForwardPsiM marks = linksPhiForwardPsi marks := by
  have hW := W64_val
  unfold linksPhiForwardPsiM linksPhiForwardPsi constructMarkToSampleLinks
  dsimp only
  rw [mapM_congr_option (g := fun m => cmod (m + 1) marks.length)]
  intro k hk
  have := sortIndices_lt hk
  rw [add64_eq (by omega)]

theorem bucketLoop_agrees {f g : Nat → Option Nat} (h : ∀ i, Agrees (f i) (g i) (fun _ => True)) : ∀ (l : List (Nat × Nat)) (bs : List (List Nat)),
    Agrees (bucketLoop f l bs) (bucketLoop g l bs) (fun _ => True)
  | [], _ => Agrees.pure trivial
  | (pos, v) :: rest, bs => by
    rw [bucketLoop, bucketLoop]
    refine Agrees.bind (h pos) fun c _ _ => ?_
    exact Agrees.bind (Agrees.refl (P := fun _ => True) fun _ _ => trivial) fun b _ _ => bucketLoop_agrees h rest _

theorem mapM_split {f : Nat → Option Nat} {g : Nat → Option Nat} : ∀ (l : List Nat),
    Agrees (l.mapM (fun a => (f a).bind g)) ((l.mapM f).bind (fun xs => xs.mapM g)) (fun _ => True)
  | [] => Agrees.pure trivial
  | a :: l => by
    intro r hr
    rw [List.mapM_cons] at hr
    simp only [Option.bind_eq_bind, Option.bind_eq_some_iff, Option.pure_def, Option.some_inj] at hr
    obtain ⟨x, ⟨y, h1, h2⟩, xs, h3, rfl⟩ := hr
    obtain ⟨ys, h4, h5⟩ := Option.bind_eq_some_iff.1 ((mapM_split l).eq h3)
    refine ⟨?_, trivial⟩
    rw [List.mapM_cons]
    simp only [Option.bind_eq_bind, Option.bind_some, Option.pure_def, h1, h4, List.mapM_cons, h2, h5]

theorem mapM_inv {f : Nat → Option Nat} : ∀ {l r : List Nat}, l.mapM f = some r → r.length = l.length ∧ ∀ x ∈ r, ∃ a ∈ l, f a = some x
  | [], r, h => by
    rw [List.mapM_nil, Option.pure_def, Option.some_inj] at h
    subst h; simp
  | a :: l, r, h => by
    rw [List.mapM_cons] at h
    simp only [Option.bind_eq_bind, Option.bind_eq_some_iff, Option.pure_def, Option.some_inj] at h
    obtain ⟨x, h1, xs, h2, rfl⟩ := h
    obtain ⟨h3, h4⟩ := mapM_inv h2
    refine ⟨by simp [h3], fun y hy => ?_⟩
    rcases List.mem_cons.1 hy with rfl | hy
    · exact ⟨a, by simp, h1⟩
    · obtain ⟨b, hb, e⟩ := h4 y hy
      exact ⟨b, by simp [hb], e⟩

/-! ## Sub-sampling -/

theorem samplingLoopM_eq {s : Nat} {values req : List Nat} (hv : ∀ v ∈ values, v < W64) : ∀ (rest : List Nat) (last prevIdx prev : Nat),
    last < W64 → prev < W64 → samplingLoopM s values req last prevIdx prev rest = samplingLoop s values req last prevIdx prev rest
  | [], _, _, _, _, _ => rfl
  | c :: rest, last, prevIdx, prev, hl, hp => by
    rw [samplingLoopM, samplingLoop]
    cases hc : values[c]? with
    | none => rw [Option.bind_eq_bind, Option.bind_none, Option.bind_eq_bind, Option.bind_none]
    | some curr =>
      have hcurr := hv curr (List.mem_of_getElem? hc)
      simp only [Option.bind_eq_bind, Option.bind_some]
      have e : (if curr < last then wsub last curr else wsub curr last) = if curr < last then last - curr else curr - last := by
        split
        · exact wsub_eq (by omega) hl
        · exact wsub_eq (by omega) hcurr
      rw [e, samplingLoopM_eq hv rest prev c curr hp hcurr, samplingLoopM_eq hv rest last c curr hl hcurr]

theorem samplingLoop_members {s : Nat} {values req : List Nat} : ∀ (rest : List Nat) (last prevIdx prev : Nat) (l : List Nat),
    samplingLoop s values req last prevIdx prev rest = some l → l.length ≤ rest.length + 1 ∧ ∀ x ∈ l, x = prevIdx ∨ x ∈ rest
  | [], _, _, _, l, h => by
    rw [samplingLoop, Option.some_inj] at h
    subst h; simp
  | c :: rest, last, prevIdx, prev, l, h => by
    rw [samplingLoop] at h
    simp only [Option.bind_eq_bind, Option.bind_eq_some_iff] at h
    obtain ⟨curr, -, h⟩ := h
    generalize (if curr < last then last - curr else curr - last) = d at h
    split at h
    · simp only [Option.bind_eq_some_iff, Option.pure_def, Option.some_inj] at h
      obtain ⟨l', h, rfl⟩ := h
      obtain ⟨h1, h2⟩ := samplingLoop_members rest _ _ _ _ h
      refine ⟨by simp; omega, fun x hx => ?_⟩
      rcases List.mem_cons.1 hx with rfl | hx
      · exact Or.inl rfl
      · rcases h2 x hx with rfl | h3 <;> simp_all
    · obtain ⟨h1, h2⟩ := samplingLoop_members rest _ _ _ _ h
      refine ⟨by simp; omega, fun x hx => ?_⟩
      rcases h2 x hx with rfl | h3 <;> simp_all

theorem computeSamplingM_eq {s : Nat} {idxs values req : List Nat} (hv : ∀ v ∈ values, v < W64) :
    computeSamplingM s idxs values req = computeSampling s idxs values req := by
  unfold computeSamplingM computeSampling
  rcases idxs with _ | ⟨f, _ | ⟨p, rest⟩⟩
  · rfl
  · rfl
  · dsimp only
    cases hf : values[f]? with
    | none => rw [Option.bind_eq_bind, Option.bind_none, Option.bind_eq_bind, Option.bind_none]
    | some last =>
      cases hp : values[p]? with
      | none => simp only [Option.bind_eq_bind, Option.bind_none, Option.bind_some]
      | some prev =>
        simp only [Option.bind_eq_bind, Option.bind_some]
        rw [samplingLoopM_eq hv rest last p prev (hv _ (List.mem_of_getElem? hf)) (hv _ (List.mem_of_getElem? hp))]

theorem computeSampling_members {s : Nat} {idxs values req l : List Nat} (h : computeSampling s idxs values req = some l) :
    l.length ≤ idxs.length ∧ ∀ x ∈ l, x ∈ idxs := by
  unfold computeSampling at h
  rcases idxs with _ | ⟨f, _ | ⟨p, rest⟩⟩
  · rw [Option.some_inj] at h; subst h; simp
  · simp only [Option.bind_eq_bind, Option.bind_eq_some_iff, Option.pure_def, Option.some_inj] at h
    obtain ⟨_, -, rfl⟩ := h
    simp
  · simp only [Option.bind_eq_bind, Option.bind_eq_some_iff, Option.pure_def, Option.some_inj] at h
    obtain ⟨_, -, _, -, l', h, rfl⟩ := h
    obtain ⟨h1, h2⟩ := samplingLoop_members _ _ _ _ _ h
    refine ⟨by simp; omega, fun x hx => ?_⟩
    rcases List.mem_cons.1 hx with rfl | hx
    · simp
    · rcases h2 x hx with rfl | h3 <;> simp_all

theorem subsampleIdx_agrees {s : Nat} {samples sortedIdx links : List Nat} (hv : ∀ v ∈ samples, v < W64) (hl : links.length < W64) :
    Agrees (SrIndex.subsampleIdx s samples sortedIdx links) (subsampleIdxM s samples sortedIdx links)
      (fun idx => idx.length ≤ sortedIdx.length ∧ ∀ x ∈ idx, x ∈ sortedIdx) := by
  unfold SrIndex.subsampleIdx subsampleIdxM computeSortedSampling
  rw [last_index hl]
  simp only [Option.bind_eq_bind, Option.pure_def, Option.bind_assoc, computeSamplingM_eq hv]
  refine Agrees.refl fun idx h => ?_
  simp only [Option.bind_eq_some_iff, Option.some_inj] at h
  obtain ⟨_, -, _, -, _, -, l, h, rfl⟩ := h
  obtain ⟨h1, h2⟩ := computeSampling_members h
  have hp := sortBy_perm (fun i : Nat => i) l
  exact ⟨by rw [hp.length_eq]; exact h1, fun x hx => h2 x (hp.mem_iff.1 hx)⟩

/-! ## Validity -/

theorem submarksLoopM_eq : ∀ (submarks : List Nat) (i submark : Nat) (marks : List Nat), i + submarks.length < W64 →
    submarksLoopM i submark marks submarks = submarksLoop i submark marks submarks
  | [], _, _, _, _ => by rw [submarksLoopM, submarksLoop]
  | _ :: _, _, _, [], _ => by rw [submarksLoopM, submarksLoop]
  | t :: submarks, i, submark, m :: marks, h => by
    simp only [List.length_cons] at h
    rw [submarksLoopM, submarksLoop, add64_eq (by omega), submarksLoopM_eq submarks (i + 1) t marks (by omega)]
    split
    · congr 1; funext ms
      rw [submarksLoopM_eq submarks (i + 1) t ms (by omega)]
    · rfl

theorem computeSubmarksValidityM_eq {marks submarks : List Nat} (h : submarks.length < W64) :
    computeSubmarksValidityM marks submarks = computeSubmarksValidity marks submarks := by
  unfold computeSubmarksValidityM computeSubmarksValidity
  rcases marks with _ | ⟨m, marks⟩
  · rfl
  · rcases submarks with _ | ⟨t, submarks⟩
    · rfl
    · simp only [List.length_cons] at h
      exact submarksLoopM_eq _ _ _ _ (by omega)

theorem submarksLoop_mem : ∀ (submarks : List Nat) (i submark : Nat) (marks : List Nat) (l : List (Nat × Nat × Nat)),
    submarksLoop i submark marks submarks = some l → ∀ q ∈ l, q.2.1 ∈ submark :: submarks ∧ q.2.2 ∈ marks
  | [], _, _, _, l, h => by
    rw [submarksLoop, Option.some_inj] at h
    subst h; simp
  | _ :: _, _, _, [], l, h => by rw [submarksLoop] at h; cases h
  | t :: submarks, i, submark, m :: marks, l, h => by
    rw [submarksLoop] at h
    split at h
    · simp only [Option.bind_eq_bind, Option.bind_eq_some_iff, Option.pure_def, Option.some_inj] at h
      obtain ⟨ms, h1, l', h2, rfl⟩ := h
      intro q hq
      rcases List.mem_cons.1 hq with rfl | hq
      · simp
      · obtain ⟨h3, h4⟩ := submarksLoop_mem submarks _ _ _ _ h2 q hq
        exact ⟨List.mem_cons_of_mem _ h3, List.mem_cons_of_mem _ (skipMarks_sub h1 _ h4)⟩
    · intro q hq
      obtain ⟨h3, h4⟩ := submarksLoop_mem submarks _ _ _ _ h q hq
      exact ⟨List.mem_cons_of_mem _ h3, List.mem_cons_of_mem _ h4⟩

theorem submarksValidity_mem {marks submarks : List Nat} {l : List (Nat × Nat × Nat)} (h : computeSubmarksValidity marks submarks = some l) :
    ∀ q ∈ l, q.2.1 ∈ submarks ∧ q.2.2 ∈ marks := by
  unfold computeSubmarksValidity at h
  rcases marks with _ | ⟨m, marks⟩
  · cases h
  · rcases submarks with _ | ⟨t, submarks⟩
    · cases h
    · intro q hq
      obtain ⟨h1, h2⟩ := submarksLoop_mem _ _ _ _ _ h q hq
      exact ⟨h1, List.mem_cons_of_mem _ h2⟩

theorem mapM_agrees_map {α β : Type} {f : α → Option β} {g : α → β} : ∀ {l : List α}, (∀ a ∈ l, Agrees (f a) (some (g a)) (fun _ => True)) →
    Agrees (l.mapM f) (some (l.map g)) (fun _ => True)
  | [], _ => Agrees.pure trivial
  | a :: l, h => by
    rw [List.mapM_cons]
    intro r hr
    simp only [Option.bind_eq_bind, Option.bind_eq_some_iff, Option.pure_def, Option.some_inj] at hr
    obtain ⟨x, h1, xs, h2, rfl⟩ := hr
    have e1 := Option.some_inj.1 ((h a (by simp)).eq h1)
    have e2 := Option.some_inj.1 ((mapM_agrees_map fun b hb => h b (by simp [hb])).eq h2)
    exact ⟨by rw [List.map_cons, e1, e2], trivial⟩

theorem validityM_agrees {marks sub : List Nat} (hl : sub.length < W64) (hs : ∀ v ∈ sub, v < W64) :
    Agrees (SrCSAValid.validity marks sub) (SrCSAValid.validityM marks sub) (fun _ => True) := by
  unfold SrCSAValid.validity SrCSAValid.validityM
  have hp := sortBy_perm (fun x : Nat => x) sub
  rw [computeSubmarksValidityM_eq (by rw [List.length_reverse, hp.length_eq]; exact hl)]
  simp only [Option.bind_eq_bind, Option.pure_def]
  refine Agrees.bind (P := fun l => ∀ q ∈ l, q.2.1 < W64) (Agrees.refl fun l h q hq => ?_) fun l hq _ => ?_
  · have := (submarksValidity_mem h q hq).1
    rw [List.mem_reverse, hp.mem_iff] at this
    exact hs _ this
  · have := mapM_agrees_map (l := l.reverse) (f := fun (q : Nat × Nat × Nat) => (csub sub.length q.1).bind fun i => (csub i 1).bind fun i =>
        (csub q.2.1 q.2.2).bind fun a => some (i, a)) (g := fun q => (wsub (wsub sub.length q.1) 1, wsub q.2.1 q.2.2)) (fun q h => by
      refine Agrees.csub fun h1 => Agrees.csub fun h2 => Agrees.csub fun h3 => ?_
      rw [wsub_eq h1 hl, wsub_eq h2 (by omega), wsub_eq h3 (hq q (List.mem_reverse.1 h))]
      exact Agrees.pure trivial)
    have h2 := Agrees.bind this (g := fun q => (bitVectorFromInts (q.map (·.1)) sub.length true).bind fun bv => some (bv, q.map (·.2)))
      (Q := fun _ => True) (f := fun q => (bitVectorFromInts (q.map (·.1)) sub.length true).bind fun bv => some (bv, q.map (·.2)))
      fun r _ _ => Agrees.refl fun _ _ => trivial
    rw [Option.bind_some] at h2
    exact h2


/-! ## The classes -/

theorem BaseOK.sizes {T sa T' : List Nat} {b : BaseItems} (ok : BaseOK T sa T' b) (hn : T.length < 2 ^ 31) :
    T'.length < 2 ^ 31 ∧ b.runs.first.length < 2 ^ 31 ∧ b.runs.firstTextPos.length < 2 ^ 31 ∧ b.runs.lastTextPos.length < 2 ^ 31 ∧
      (∀ v ∈ b.runs.firstTextPos, v < W64) ∧ (∀ v ∈ b.runs.lastTextPos, v < W64) := by
  have hW := W64_val
  have hl := ok.compact.len
  have h1 := nrun_le (T := T') (sa := sa)
  have hp := ok.compact.text.pos
  have hf : b.runs.firstTextPos.length = nrun T' sa := by rw [ok.firstTextPos, headPos, List.length_map, List.length_range]
  have ht : b.runs.lastTextPos.length = nrun T' sa := by rw [ok.lastTextPos, tailPos, List.length_map, List.length_range]
  have h0 : b.runs.first.length = nrun T' sa := by rw [ok.first, List.length_map, List.length_range]
  refine ⟨by omega, by omega, by omega, by omega, fun v hv => ?_, fun v hv => ?_⟩
  · rw [ok.firstTextPos] at hv
    have := headPos_lt hp v hv; omega
  · rw [ok.lastTextPos] at hv
    have := tailPos_lt hp v hv; omega

variable {T sa : List Nat}

theorem RIndex.buildM_eq (hT : IsText T) (hsa : IsSA T sa) (hn : T.length < 2 ^ 31) : RIndex.buildM T sa = RIndex.build T sa := by
  obtain ⟨b, T', hb, ok⟩ := base_build hT hsa
  obtain ⟨-, -, h2, -, -, -⟩ := ok.sizes hn
  unfold RIndex.buildM RIndex.build
  rw [constructBaseM_eq hT hsa hn, hb]
  simp only [Option.bind_eq_bind, Option.bind_some]
  rw [linksPhiBackwardM_eq (by omega), Option.bind_some]

/-- the index found by the sub-sampling are indices of samples, one each at most -/
theorem subsample_of_sortIndices {s : Nat} {samples links sortedIdx : List Nat} (hp : sortedIdx.Perm (sortIndices samples))
    (hv : ∀ v ∈ samples, v < W64) (hl : links.length < W64) :
    Agrees (SrIndex.subsampleIdx s samples sortedIdx links) (subsampleIdxM s samples sortedIdx links)
      (fun idx => idx.length ≤ samples.length ∧ ∀ x ∈ idx, x < samples.length) := by
  refine (subsampleIdx_agrees hv hl).mono fun r _ h => ⟨?_, fun x hx => sortIndices_lt (hp.mem_iff.1 (h.2 x hx))⟩
  have := h.1
  rw [hp.length_eq, sortIndices_length] at this
  exact this

theorem SrIndex.submarksM_agrees {marks idx : List Nat} (hi : idx.length < 2 ^ 31) (hx : ∀ x ∈ idx, x < 2 ^ 31) :
    Agrees (SrIndex.submarks marks idx) (SrIndex.submarksM marks idx) (fun sub => sub.length = idx.length ∧ ∀ v ∈ sub, v ∈ marks) := by
  have hW := W64_val
  unfold SrIndex.submarks SrIndex.submarksM
  rw [fillLoopInt_eq _ _ _ (by unfold intMax; omega),
    mapM_congr_option (f := fun i => cmod (add64 i 1) marks.length) (g := fun i => cmod (i + 1) marks.length)
      (fun i h => by have := hx i h; rw [add64_eq (by omega)])]
  refine (mapM_split (f := fun i => cmod (i + 1) marks.length) (g := fun k => marks[k]?) idx).mono fun r hr _ => ?_
  obtain ⟨h1, h2⟩ := mapM_inv hr
  refine ⟨h1, fun v hv => ?_⟩
  obtain ⟨a, -, ha⟩ := h2 v hv
  obtain ⟨k, -, hk⟩ := Option.bind_eq_some_iff.1 ha
  exact List.mem_of_getElem? hk

theorem linksPhiBackward_length (marks : List Nat) : (linksPhiBackward marks).2.length = marks.length := by
  unfold linksPhiBackward
  rw [List.length_map, sortIndices_length]

theorem SrIndex.buildM_eq (hT : IsText T) (hsa : IsSA T sa) (hn : T.length < 2 ^ 31) (s : Nat) : SrIndex.buildM T sa s = SrIndex.build T sa s := by
  have hW := W64_val
  obtain ⟨I, -, -, hI, -⟩ := SrIndex.build_ok hT hsa s
  rw [hI]
  refine Agrees.eq (P := fun _ => True) ?_ hI
  obtain ⟨b, T', hb, ok⟩ := base_build hT hsa
  obtain ⟨-, -, h2, h3, h4, h5⟩ := ok.sizes hn
  unfold SrIndex.buildM SrIndex.build
  rw [constructBaseM_eq hT hsa hn, hb]
  simp only [Option.bind_eq_bind, Option.bind_some]
  rw [linksPhiBackwardM_eq (by omega), Option.bind_some]
  refine Agrees.bind (subsample_of_sortIndices (List.Perm.refl _) h5 (by rw [linksPhiBackward_length]; omega)) fun idx hi _ => ?_
  refine Agrees.bind (P := fun _ => True) (Agrees.refl fun _ _ => trivial) fun _ _ _ => ?_
  refine Agrees.bind (P := fun _ => True) (Agrees.refl fun _ _ => trivial) fun _ _ _ => ?_
  refine Agrees.bind (SrIndex.submarksM_agrees (by omega) fun x hx => by have := hi.2 x hx; omega) fun _ _ _ => ?_
  exact Agrees.refl fun _ _ => trivial

theorem SrIndexValid.buildM_eq (hT : IsText T) (hsa : IsSA T sa) (hn : T.length < 2 ^ 31) (s : Nat) :
    SrIndexValid.buildM T sa s = SrIndexValid.build T sa s := by
  have hW := W64_val
  obtain ⟨I, -, -, -, hI, -⟩ := SrIndexValid.build_ok hT hsa s
  rw [hI]
  refine Agrees.eq (P := fun _ => True) ?_ hI
  obtain ⟨b, T', hb, ok⟩ := base_build hT hsa
  obtain ⟨-, -, h2, h3, h4, h5⟩ := ok.sizes hn
  unfold SrIndexValid.buildM SrIndexValid.build
  rw [SrIndex.buildM_eq hT hsa hn, constructBaseM_eq hT hsa hn, hb]
  simp only [Option.bind_eq_bind, Option.bind_some]
  rw [linksPhiBackwardM_eq (by omega)]
  simp only [Option.bind_some]
  refine Agrees.bind (P := fun _ => True) (Agrees.refl fun _ _ => trivial) fun _ _ _ => ?_
  refine Agrees.bind (subsample_of_sortIndices (List.Perm.refl _) h5 (by rw [linksPhiBackward_length]; omega)) fun idx hi _ => ?_
  refine Agrees.bind (SrIndex.submarksM_agrees (by omega) fun x hx => by have := hi.2 x hx; omega) fun sub hs _ => ?_
  refine Agrees.bind (P := fun l => ∀ v ∈ l, v < W64) (Agrees.refl fun l hl v hv => ?_) fun marks hm _ => ?_
  · obtain ⟨a, -, ha⟩ := (mapM_inv hl).2 v hv
    exact h4 v (List.mem_of_getElem? ha)
  · rw [computeSubmarksValidityM_eq (by rw [(sortBy_perm _ sub).length_eq]; omega)]
    refine Agrees.bind (P := fun l => ∀ q ∈ l, q.2.2 < W64) (Agrees.refl fun l hl q hq => hm _ (submarksValidity_mem hl q hq).2) fun l hq _ => ?_
    have h := mapM_agrees_map (l := l) (f := fun q => csub q.2.2 q.2.1) (g := fun q => wsub q.2.2 q.2.1) (fun q h => by
      intro r hr
      unfold csub at hr
      by_cases hle : q.2.1 ≤ q.2.2
      · rw [if_pos hle] at hr
        exact ⟨by rw [wsub_eq hle (hq q h)]; exact hr, trivial⟩
      · rw [if_neg hle] at hr; cases hr)
    have h2 := Agrees.bind h (g := fun areas => (bitVectorFromInts (l.map (·.1)) sub.length true).bind fun v =>
        some ({ sr := ‹SrIndex›, validMarks := v, validAreas := areas } : SrIndexValid)) (Q := fun _ => True)
      fun r _ _ => Agrees.refl fun _ _ => trivial
    rw [Option.bind_some] at h2
    exact h2

theorem linksPhiForwardBWTM_eq {T' : List Nat} {b : BaseItems} {p : PsiItems} (hb : BaseOK T sa T' b) (hp : PsiItemsOK T' sa b.alphabet.sigma p)
    (hn : T.length < 2 ^ 31) : linksPhiForwardBWTM b p = linksPhiForwardBWT b p := by
  have hW := W64_val
  have hc := hb.compact
  have hpos := hc.text.pos
  have hlen := hc.len
  obtain ⟨hC, hnav⟩ := PsiNav.ok_of_items hb hp
  unfold linksPhiForwardBWTM linksPhiForwardBWT constructMarkToSampleLinks
  rw [hC]
  simp only [Option.bind_eq_bind, Option.bind_some]
  rw [mapM_congr_option]
  intro m hm
  rw [hb.lastTextPos] at hm
  have hmr : m < nrun T' sa := by
    have := sortIndices_lt hm
    rwa [tailPos, List.length_map, List.length_range] at this
  rw [hb.last, List.getElem?_map, List.getElem?_range hmr]
  simp only [Option.map_some, Option.bind_some]
  have hl := lfAt_lt hc.isSA (tl_lt (T := T') (sa := sa) hmr)
  have hpsi := hnav.psiFn ((lfAt T' sa (tl T' sa m) + 1) % T'.length) (Nat.mod_lt _ hpos)
  unfold PsiNav.psiAt at hpsi
  unfold markToSampleLinkM markToSampleLink
  rw [basicLFM_eq hb hn (tl_lt hmr), basicLF_eq hb (tl_lt hmr)]
  simp only [Option.bind_eq_bind, Option.bind_some]
  rw [add64_eq (by omega), cmod, if_neg (by omega)]
  simp only [Option.bind_some]
  rw [psiApplyM_eq hb hp hn (Nat.mod_lt _ hpos)]
  exact (congrArg (fun x => x.bind fun k => some (lowerBound b.runs.first k)) hpsi).symm

theorem constructPsiRunsM_agrees {T' : List Nat} {b : BaseItems} (hb : BaseOK T sa T' b) (hn : T.length < 2 ^ 31) (pos textPos : List Nat) :
    Agrees (constructPsiRuns b pos textPos) (constructPsiRunsM b pos textPos) (fun _ => True) := by
  have hlen := hb.compact.len
  have hsm := hb.rle.small (by unfold Fits; omega)
  unfold constructPsiRuns constructPsiRunsM
  simp only [Option.bind_eq_bind, Option.pure_def]
  exact Agrees.bind (bucketLoop_agrees (fun i => (hsm.access i)) _ _) fun _ _ _ => Agrees.pure trivial

theorem RCSABwt.buildM_eq (hT : IsText T) (hsa : IsSA T sa) (hn : T.length < 2 ^ 31) : RCSABwt.buildM T sa = RCSABwt.build T sa := by
  have hW := W64_val
  obtain ⟨b, T', hb, ok⟩ := base_build hT hsa
  obtain ⟨p, hp, pk⟩ := psiItems_build ok (by omega)
  unfold RCSABwt.buildM RCSABwt.build
  rw [constructBaseM_eq hT hsa hn, hb]
  simp only [Option.bind_eq_bind, Option.bind_some]
  rw [constructPsiItemsM_eq ok hn hp pk, hp]
  simp only [Option.bind_some]
  rw [linksPhiForwardBWTM_eq ok pk hn]

theorem linksPhiForwardPsi_length {marks : List Nat} {l : List Nat × List Nat} (h : linksPhiForwardPsi marks = some l) : l.2.length = marks.length := by
  unfold linksPhiForwardPsi constructMarkToSampleLinks at h
  simp only [Option.bind_eq_bind, Option.bind_eq_some_iff, Option.pure_def, Option.some_inj] at h
  obtain ⟨l', h, rfl⟩ := h
  rw [(mapM_inv h).1, sortIndices_length]

/-- the values that the runs by symbol put in order are those given, one each -/
theorem BaseOK.psiRuns {T' : List Nat} {b : BaseItems} (ok : BaseOK T sa T' b) (hn : T.length < 2 ^ 31) :
    ∃ heads tails, constructPsiRuns b b.runs.first b.runs.firstTextPos = some heads ∧ constructPsiRuns b b.runs.last b.runs.lastTextPos = some tails ∧
      constructPsiRunsM b b.runs.first b.runs.firstTextPos = some heads ∧ constructPsiRunsM b b.runs.last b.runs.lastTextPos = some tails ∧
      heads.length < 2 ^ 31 ∧ tails.length = heads.length ∧ (∀ v ∈ heads, v < W64) ∧ (∀ v ∈ tails, v < W64) := by
  have hW := W64_val
  have hc := ok.compact
  have hlen := hc.len
  have hpos := hc.text.pos
  have hr := nrun_le (T := T') (sa := sa)
  have hperm := psiOrd_perm hc.text hc.isSA (RCSAPsi.sy_lt hc)
  have hh := RCSAPsi.constructPsiRuns_eq ok (pos := hd T' sa) (fun q hq => ⟨hd_lt hq, bwt_hd hq⟩) (fun q => pv T' sa (hd T' sa q))
  have ht := RCSAPsi.constructPsiRuns_eq ok (pos := tl T' sa) (fun q hq => ⟨tl_lt hq, bwt_tl hq⟩) (fun q => pv T' sa (tl T' sa q))
  rw [← ok.first] at hh
  rw [← ok.last] at ht
  have e1 : (List.range (nrun T' sa)).map (fun q => pv T' sa (hd T' sa q)) = b.runs.firstTextPos := by rw [ok.firstTextPos]; rfl
  have e2 : (List.range (nrun T' sa)).map (fun q => pv T' sa (tl T' sa q)) = b.runs.lastTextPos := by rw [ok.lastTextPos]; rfl
  rw [e1] at hh
  rw [e2] at ht
  refine ⟨_, _, hh, ht, (constructPsiRunsM_agrees ok hn _ _).eq hh, (constructPsiRunsM_agrees ok hn _ _).eq ht, ?_, ?_, fun v hv => ?_, fun v hv => ?_⟩
  · rw [List.length_map, hperm.length_eq, List.length_range]; omega
  · rw [List.length_map, List.length_map]
  · obtain ⟨q, -, rfl⟩ := List.mem_map.1 hv
    have : pv T' sa (hd T' sa q) < T'.length := Nat.mod_lt _ hpos
    omega
  · obtain ⟨q, -, rfl⟩ := List.mem_map.1 hv
    have : pv T' sa (tl T' sa q) < T'.length := Nat.mod_lt _ hpos
    omega

theorem RCSAPsi.buildM_eq (hT : IsText T) (hsa : IsSA T sa) (hn : T.length < 2 ^ 31) : RCSAPsi.buildM T sa = RCSAPsi.build T sa := by
  have hW := W64_val
  obtain ⟨b, T', hb, ok⟩ := base_build hT hsa
  obtain ⟨p, hp, pk⟩ := psiItems_build ok (by omega)
  obtain ⟨heads, tails, r1, r2, r3, r4, r5, r6, -, -⟩ := ok.psiRuns hn
  unfold RCSAPsi.buildM RCSAPsi.build
  rw [constructBaseM_eq hT hsa hn, hb]
  simp only [Option.bind_eq_bind, Option.bind_some]
  rw [constructPsiItemsM_eq ok hn hp pk, hp]
  simp only [Option.bind_some, r1, r2, r3, r4]
  rw [linksPhiForwardPsiM_eq (by omega)]

namespace SrCSA

theorem submarksBWTM_agrees {T' : List Nat} {b : BaseItems} {p : PsiItems} (hb : BaseOK T sa T' b) (hp : PsiItemsOK T' sa b.alphabet.sigma p)
    (hn : T.length < 2 ^ 31) {idx : List Nat} (hl : idx.length < 2 ^ 31) (hi : ∀ x ∈ idx, x < nrun T' sa) :
    submarksBWTM b p idx = submarksBWT b p idx := by
  have hW := W64_val
  have hc := hb.compact
  have hpos := hc.text.pos
  have hlen := hc.len
  obtain ⟨hC, hnav⟩ := PsiNav.ok_of_items hb hp
  unfold submarksBWTM submarksBWT
  rw [hC]
  simp only [Option.bind_eq_bind, Option.bind_some]
  rw [fillLoopInt_eq _ _ _ (by unfold intMax; omega), mapM_congr_option]
  intro q hq
  have hqr := hi q hq
  rw [hb.first, List.getElem?_map, List.getElem?_range hqr]
  simp only [Option.map_some, Option.bind_some]
  have hl := lfAt_lt hc.isSA (hd_lt (T := T') (sa := sa) hqr)
  have hpsi := hnav.psiFn ((lfAt T' sa (hd T' sa q) + T'.length - 1) % T'.length) (Nat.mod_lt _ hpos)
  unfold PsiNav.psiAt at hpsi
  unfold sampleToMarkLinkM sampleToMarkLink
  rw [basicLFM_eq hb hn (hd_lt hqr), basicLF_eq hb (hd_lt hqr)]
  simp only [Option.bind_eq_bind, Option.bind_some]
  rw [add64_eq (by omega), wsub_eq (by omega) (by omega), csub, if_pos (by omega)]
  simp only [Option.bind_some]
  rw [cmod, if_neg (by omega)]
  simp only [Option.bind_some]
  rw [psiApplyM_eq hb hp hn (Nat.mod_lt _ hpos)]
  exact (congrArg (fun x => x.bind fun k => some (lowerBound b.runs.last k)) hpsi).symm

theorem linksPhiForwardBWT_length {b : BaseItems} {p : PsiItems} {l : List Nat × List Nat} (h : linksPhiForwardBWT b p = some l) :
    l.2.length = b.runs.lastTextPos.length := by
  unfold linksPhiForwardBWT constructMarkToSampleLinks at h
  simp only [Option.bind_eq_bind, Option.bind_eq_some_iff, Option.pure_def, Option.some_inj] at h
  obtain ⟨_, -, l', h, rfl⟩ := h
  rw [(mapM_inv h).1, sortIndices_length]

theorem commonsM_eq (hT : IsText T) (hsa : IsSA T sa) (hn : T.length < 2 ^ 31) (s : Nat) : commonsM T sa s = commons T sa s := by
  have hW := W64_val
  obtain ⟨k, -, hk, -⟩ := commons_ok hT hsa (by omega) s
  rw [hk]
  refine Agrees.eq (P := fun _ => True) ?_ hk
  obtain ⟨b, T', hb, ok⟩ := base_build hT hsa
  obtain ⟨p, hp, pk⟩ := psiItems_build ok (by omega)
  obtain ⟨-, -, h2, h3, h4, h5⟩ := ok.sizes hn
  unfold commonsM commons
  rw [constructBaseM_eq hT hsa hn, hb]
  simp only [Option.bind_eq_bind, Option.bind_some]
  rw [constructPsiItemsM_eq ok hn hp pk, hp]
  simp only [Option.bind_some]
  rw [linksPhiForwardBWTM_eq ok pk hn]
  refine Agrees.bind (P := fun l => l.2.length = b.runs.lastTextPos.length) (Agrees.refl fun l h => linksPhiForwardBWT_length h) fun links hl _ => ?_
  refine Agrees.bind (subsample_of_sortIndices (List.reverse_perm _) h4 (by omega)) fun idx hi _ => ?_
  refine Agrees.bind (P := fun _ => True) (Agrees.refl fun _ _ => trivial) fun _ _ _ => ?_
  rw [submarksBWTM_agrees ok pk hn (by omega) (fun x hx => by
    have := hi.2 x hx
    rwa [ok.firstTextPos, headPos, List.length_map, List.length_range] at this)]
  exact Agrees.refl fun _ _ => trivial

theorem buildM_eq (hT : IsText T) (hsa : IsSA T sa) (hn : T.length < 2 ^ 31) (s : Nat) : buildM T sa s = build T sa s := by
  unfold buildM build
  rw [commonsM_eq hT hsa hn s]

theorem countRunsM_eq : ∀ (l : List (Nat × Nat)) (count : Nat), count + l.length < W64 → countRunsM l count = count + l.length
  | [], _, _ => rfl
  | q :: l, count, h => by
    simp only [List.length_cons] at h
    rw [countRunsM, add64_eq (by omega), countRunsM_eq l (count + 1) (by omega), List.length_cons]
    omega

theorem sortedByAlphabetM_eq {P : PsiCoreRLE} {first : List Nat} (hP : ∀ c, P.traverse64 c = P.traverse c) : ∀ (cs : List Nat) (count : Nat) (l cum : List Nat),
    sortedByAlphabet P first cs count = some (l, cum) → count + l.length < W64 →
      sortedByAlphabetM P first cs count = some (l, cum) ∧ ∀ x ∈ cum, x ≤ count + l.length
  | [], _, l, cum, h, _ => by
    rw [sortedByAlphabet, Option.some_inj, Prod.mk.injEq] at h
    obtain ⟨rfl, rfl⟩ := h
    exact ⟨rfl, by simp⟩
  | c :: cs, count, l, cum, h, hl => by
    rw [sortedByAlphabet] at h
    simp only [Option.bind_eq_bind, Option.bind_eq_some_iff, Option.pure_def, Option.some_inj, Prod.mk.injEq] at h
    obtain ⟨runs, h1, ⟨l', cum'⟩, h2, rfl, rfl⟩ := h
    simp only [List.length_append, List.length_map] at hl
    obtain ⟨h3, h4⟩ := sortedByAlphabetM_eq hP cs _ _ _ h2 (by omega)
    refine ⟨?_, ?_⟩
    · rw [sortedByAlphabetM, hP, h1, Option.bind_eq_bind, Option.bind_some, countRunsM_eq _ _ (by omega), h3]
      rfl
    · intro x hx
      rw [List.length_append, List.length_map]
      rcases List.mem_cons.1 hx with rfl | hx
      · dsimp only; omega
      · have := h4 x hx; dsimp only at this ⊢; omega

theorem cumulativeM_eq {P : PsiCoreRLE} : ∀ (cs : List Nat) (count : Nat) (cum : List Nat), cumulative P cs count = some cum →
    (∀ x ∈ cum, x < W64) → cumulativeM P cs count = some cum
  | [], _, cum, h, _ => by rw [cumulative] at h; rw [cumulativeM]; exact h
  | c :: cs, count, cum, h, hl => by
    rw [cumulative] at h
    simp only [Option.bind_eq_bind, Option.bind_eq_some_iff, Option.pure_def, Option.some_inj] at h
    obtain ⟨k, h1, cum', h2, rfl⟩ := h
    have h3 := hl (count + k) (by simp)
    rw [cumulativeM, h1, Option.bind_eq_bind, Option.bind_some, add64_eq h3, cumulativeM_eq cs _ _ h2 fun x hx => hl x (by simp [hx])]
    rfl

theorem slimLoopM_eq {bv : List Bool} {subs : List Nat} : ∀ (rest : List Nat) (i cnt : Nat) (t : List Nat), i + rest.length < W64 → cnt + rest.length < W64 →
    slimLoopM bv subs i cnt t rest = slimLoop bv subs i cnt t rest
  | [], _, _, _, _, _ => by rw [slimLoopM, slimLoop]
  | a :: rest, i, cnt, t, h1, h2 => by
    simp only [List.length_cons] at h1 h2
    rw [slimLoopM, slimLoop, add64_eq (by omega), add64_eq (by omega)]
    simp only [Option.bind_eq_bind]
    congr 1; funext b
    split
    · congr 1; funext rnk
      congr 1; funext v
      congr 1; funext _
      rw [slimLoopM_eq rest (i + 1) (cnt + 1) _ (by omega) (by omega)]
    · exact slimLoopM_eq rest (i + 1) cnt t (by omega) (by omega)

/-- the runs by symbol and the counts of runs -/
theorem sorted_facts {T' : List Nat} {b : BaseItems} {p : PsiItems} (hb : BaseOK T sa T' b) (hp : PsiItemsOK T' sa b.alphabet.sigma p)
    (hn : T.length < 2 ^ 31) : ∃ ord cum, sortedByAlphabet p.core b.runs.first (List.range p.core.parts.length) 0 = some (ord, cum) ∧
      sortedByAlphabetM p.core b.runs.first (List.range p.core.parts.length) 0 = some (ord, cum) ∧ ord.length < 2 ^ 31 ∧
      cumulativeM p.core (List.range p.core.parts.length) 0 = cumulative p.core (List.range p.core.parts.length) 0 := by
  have hW := W64_val
  have hc := hb.compact
  have hlen := hc.len
  have hr := nrun_le (T := T') (sa := sa)
  have hperm := psiOrd_perm hc.text hc.isSA (RCSAPsi.sy_lt hc)
  have hsort := sortedByAlphabet_eq hp.core b.alphabet.sigma 0 (by omega)
  have hcum := cumulative_eq hp.core b.alphabet.sigma 0 (by omega)
  rw [← List.range_eq_range', ← hb.first] at hsort
  rw [← List.range_eq_range'] at hcum
  have hsort' : sortedByAlphabet p.core b.runs.first (List.range p.core.parts.length) 0 =
      some (psiOrd T' sa b.alphabet.sigma, (List.range b.alphabet.sigma).map (fun c => runSum T' sa (c+1))) := by rw [hp.core.len]; exact hsort
  have hcum' : cumulative p.core (List.range p.core.parts.length) 0 = some ((List.range b.alphabet.sigma).map (fun c => runSum T' sa (c+1))) := by
    rw [hp.core.len]; exact hcum
  have hol : (psiOrd T' sa b.alphabet.sigma).length = nrun T' sa := by rw [hperm.length_eq, List.length_range]
  have hN : (bwtSeq T' sa).length < 2 ^ 61 := by rw [bwtSeq_length]; omega
  obtain ⟨e1, e2⟩ := sortedByAlphabetM_eq (fun c => PsiOK.traverse64 hN hp.core c) _ _ _ _ hsort' (by omega)
  refine ⟨_, _, hsort', e1, by omega, ?_⟩
  rw [hcum']
  exact cumulativeM_eq _ _ _ hcum' fun x hx => by have := e2 x hx; omega

theorem buildSlimM_eq (hT : IsText T) (hsa : IsSA T sa) (hn : T.length < 2 ^ 31) (s : Nat) : buildSlimM T sa s = buildSlim T sa s := by
  have hW := W64_val
  obtain ⟨k, T', hk, h⟩ := commons_ok hT hsa (by omega) s
  obtain ⟨ord, cum, e1, e2, e3, -⟩ := sorted_facts h.base h.psi hn
  unfold buildSlimM buildSlim
  rw [commonsM_eq hT hsa hn s, hk]
  simp only [Option.bind_eq_bind, Option.bind_some, e1, e2]
  simp only [slimLoopM_eq ord 0 0 _ (by omega) (by omega)]

theorem submarksPsiM_agrees {tails idx : List Nat} {r : Nat} (hr : r < 2 ^ 31) (hl : idx.length < 2 ^ 31) (hi : ∀ x ∈ idx, x < 2 ^ 31) :
    Agrees (submarksPsi tails r idx) (submarksPsiM tails r idx) (fun sub => sub.length = idx.length ∧ ∀ v ∈ sub, v ∈ tails) := by
  have hW := W64_val
  unfold submarksPsi submarksPsiM
  rw [fillLoopInt_eq _ _ _ (by unfold intMax; omega)]
  by_cases h0 : r = 0
  · subst h0
    cases idx with
    | nil => exact Agrees.pure ⟨rfl, by simp⟩
    | cons a l =>
      rw [List.mapM_cons]
      intro r hr
      simp [csub, cmod] at hr
  · rw [mapM_congr_option (f := fun i => cmod (wsub (add64 i r) 1) r) (g := fun i => (csub (i + r) 1).bind fun x => cmod x r) (fun i h => by
      have := hi i h
      rw [add64_eq (by omega), wsub_eq (by omega) (by omega), csub, if_pos (by omega), Option.bind_some])]
    have e : (fun i => do let x ← csub (i + r) 1; let k ← cmod x r; tails[k]?) =
        fun i => ((csub (i + r) 1).bind fun x => cmod x r).bind fun k => tails[k]? := by
      funext i; rw [Option.bind_assoc]; rfl
    rw [e]
    refine (mapM_split (f := fun i => (csub (i + r) 1).bind fun x => cmod x r) (g := fun k => tails[k]?) idx).mono fun l hl _ => ?_
    obtain ⟨h1, h2⟩ := mapM_inv hl
    refine ⟨h1, fun v hv => ?_⟩
    obtain ⟨a, -, ha⟩ := h2 v hv
    obtain ⟨k, -, hk⟩ := Option.bind_eq_some_iff.1 ha
    exact List.mem_of_getElem? hk

theorem commonsPsiM_eq (hT : IsText T) (hsa : IsSA T sa) (hn : T.length < 2 ^ 31) (s : Nat) : commonsPsiM T sa s = commonsPsi T sa s ∧
    ∀ k, commonsPsi T sa s = some k → k.sub.length < W64 ∧ ∀ v ∈ k.sub, v < W64 := by
  have hW := W64_val
  obtain ⟨k, -, -, hk, -⟩ := commonsPsi_ok hT hsa (by omega) s
  suffices h : Agrees (commonsPsi T sa s) (commonsPsiM T sa s) (fun k => k.sub.length < W64 ∧ ∀ v ∈ k.sub, v < W64) by
    exact ⟨by rw [hk]; exact h.eq hk, fun k hk => (h k hk).2⟩
  obtain ⟨b, T', hb, ok⟩ := base_build hT hsa
  obtain ⟨p, hp, pk⟩ := psiItems_build ok (by omega)
  obtain ⟨heads, tails, r1, r2, r3, r4, r5, r6, r7, r8⟩ := ok.psiRuns hn
  obtain ⟨_, _, -, -, -, hcum⟩ := sorted_facts ok pk hn
  unfold commonsPsiM commonsPsi
  rw [constructBaseM_eq hT hsa hn, hb]
  simp (maxSteps := 1000000) only [Option.bind_eq_bind, Option.bind_some]
  rw [constructPsiItemsM_eq ok hn hp pk, hp]
  rw [Option.bind_some, Option.bind_some, r1, r2, r3, r4, Option.bind_some, Option.bind_some, Option.bind_some, Option.bind_some,
    linksPhiForwardPsiM_eq (by omega), hcum]
  refine Agrees.bind (P := fun l => l.2.length = tails.length) (Agrees.refl fun l h => linksPhiForwardPsi_length h) fun links hl _ => ?_
  refine Agrees.bind (subsample_of_sortIndices (List.reverse_perm _) r7 (by omega)) fun idx hi _ => ?_
  refine Agrees.bind (P := fun _ => True) (Agrees.refl fun _ _ => trivial) fun _ _ _ => ?_
  refine Agrees.bind (submarksPsiM_agrees r5 (by omega) fun x hx => by have := hi.2 x hx; omega) fun sub hs _ => ?_
  refine Agrees.refl fun k hk => ?_
  simp only [Option.bind_eq_some_iff, Option.pure_def, Option.some_inj] at hk
  obtain ⟨_, -, _, -, _, -, _, -, rfl⟩ := hk
  exact ⟨by dsimp only; omega, fun v hv => r8 v (hs.2 v hv)⟩

theorem buildPsiM_eq (hT : IsText T) (hsa : IsSA T sa) (hn : T.length < 2 ^ 31) (s : Nat) : buildPsiM T sa s = buildPsi T sa s := by
  unfold buildPsiM buildPsi
  rw [(commonsPsiM_eq hT hsa hn s).1]

end SrCSA

namespace SrCSAValid

theorem commons_bounds {T' : List Nat} {s : Nat} {k : SrCSA.Commons} (h : SrCSA.CommonsOK T sa T' s k) (hn : T.length < 2 ^ 31) :
    k.sub.length < W64 ∧ ∀ v ∈ k.sub, v < W64 := by
  have hW := W64_val
  have hlen := h.base.compact.len
  have hr := nrun_le (T := T') (sa := sa)
  refine ⟨?_, fun v hv => by have := h.sub_lt v hv; omega⟩
  rw [h.sub, List.length_map]
  have : k.idx.Subperm (List.range (nrun T' sa)) :=
    List.subperm_of_subset (h.sorted.imp fun h => by omega) fun q hq => List.mem_range.2 (h.lt q hq)
  have := this.length_le
  rw [List.length_range] at this
  omega

theorem buildM_eq (hT : IsText T) (hsa : IsSA T sa) (hn : T.length < 2 ^ 31) (s : Nat) : buildM T sa s = build T sa s := by
  have hW := W64_val
  obtain ⟨I, -, -, -, hI, -⟩ := build_ok hT hsa (by omega) s
  rw [hI]
  refine Agrees.eq (P := fun _ => True) ?_ hI
  obtain ⟨k, T', hk, h⟩ := SrCSA.commons_ok hT hsa (by omega) s
  obtain ⟨b1, b2⟩ := commons_bounds h hn
  unfold buildM build
  rw [SrCSA.buildM_eq hT hsa hn, SrCSA.commonsM_eq hT hsa hn, hk]
  simp only [Option.bind_eq_bind, Option.bind_some]
  refine Agrees.bind (P := fun _ => True) (Agrees.refl fun _ _ => trivial) fun _ _ _ => ?_
  refine Agrees.bind (P := fun _ => True) (Agrees.refl fun _ _ => trivial) fun marks _ _ => ?_
  exact Agrees.bind (validityM_agrees b1 b2) fun _ _ _ => Agrees.refl fun _ _ => trivial

theorem buildSlimM_eq (hT : IsText T) (hsa : IsSA T sa) (hn : T.length < 2 ^ 31) (s : Nat) : buildSlimM T sa s = buildSlim T sa s := by
  have hW := W64_val
  obtain ⟨I, -, -, -, hI, -⟩ := buildSlim_ok hT hsa (by omega) s
  rw [hI]
  refine Agrees.eq (P := fun _ => True) ?_ hI
  obtain ⟨k, T', hk, h⟩ := SrCSA.commons_ok hT hsa (by omega) s
  obtain ⟨b1, b2⟩ := commons_bounds h hn
  unfold buildSlimM buildSlim
  rw [SrCSA.buildSlimM_eq hT hsa hn, SrCSA.commonsM_eq hT hsa hn, hk]
  simp only [Option.bind_eq_bind, Option.bind_some]
  refine Agrees.bind (P := fun _ => True) (Agrees.refl fun _ _ => trivial) fun _ _ _ => ?_
  refine Agrees.bind (P := fun _ => True) (Agrees.refl fun _ _ => trivial) fun marks _ _ => ?_
  exact Agrees.bind (validityM_agrees b1 b2) fun _ _ _ => Agrees.refl fun _ _ => trivial

theorem buildPsiM_eq (hT : IsText T) (hsa : IsSA T sa) (hn : T.length < 2 ^ 31) (s : Nat) : buildPsiM T sa s = buildPsi T sa s := by
  have hW := W64_val
  obtain ⟨I, -, -, -, hI, -⟩ := buildPsi_ok hT hsa (by omega) s
  rw [hI]
  refine Agrees.eq (P := fun _ => True) ?_ hI
  obtain ⟨h1, h2⟩ := SrCSA.commonsPsiM_eq hT hsa hn s
  unfold buildPsiM buildPsi
  rw [h1]
  simp only [Option.bind_eq_bind]
  refine Agrees.bind (P := fun k => k.sub.length < W64 ∧ ∀ v ∈ k.sub, v < W64) (Agrees.refl h2) fun k hk _ => ?_
  exact Agrees.bind (validityM_agrees hk.1 hk.2) fun _ _ _ => Agrees.refl fun _ _ => trivial

end SrCSAValid

theorem buildIndexM_eq (hT : IsText T) (hsa : IsSA T sa) (hn : T.length < 2 ^ 31) (t : IndexType) (s : Nat) :
    buildIndexM t T sa s = buildIndex64 t T sa s := by
  cases t <;> simp only [buildIndexM, buildIndex64, RIndex.buildM_eq hT hsa hn, SrIndex.buildM_eq hT hsa hn, SrIndexValid.buildM_eq hT hsa hn,
    RCSABwt.buildM_eq hT hsa hn, RCSAPsi.buildM_eq hT hsa hn, SrCSA.buildM_eq hT hsa hn, SrCSA.buildSlimM_eq hT hsa hn, SrCSA.buildPsiM_eq hT hsa hn,
    SrCSAValid.buildM_eq hT hsa hn, SrCSAValid.buildSlimM_eq hT hsa hn, SrCSAValid.buildPsiM_eq hT hsa hn]

end Sri

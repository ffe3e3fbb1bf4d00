import Verif.Proofs.Objects
/-! # Loading index objects from a cache and from a stream -/
namespace Sri
set_option autoImplicit false

section
variable {α : Type} {K : Codec α}

/-! ## What construct stores answers as the built index -/

theorem rIndex_parts {I : RIndex} (h : I.alphabet.C[I.alphabet.sigma]? = some I.n) (p : Parts) (ha : p.alphabet = I.alphabet)
    (hb : p.nav = .bwtRle I.bwtRle) (hs : p.samples = I.samples) (hm : p.marks = I.marks) (hl : p.markToSample = I.markToSample) :
    p.rIndex = some I := by
  unfold Parts.rIndex
  rw [ha, h]
  simp only [hb, hs, hm, hl, Option.bind_eq_bind, Option.bind_some, Option.pure_def]

theorem rcsa_parts {I : RCSA} (h : I.alphabet.C[I.alphabet.sigma]? = some I.n) (p : Parts) (ha : p.alphabet = I.alphabet)
    (hb : p.nav = .psi I.psi) (hs : p.samples = I.samples) (hm : p.marks = I.marks) (hl : p.markToSample = I.markToSample) :
    p.rcsa = some I := by
  unfold Parts.rcsa
  rw [ha, h]
  simp only [hb, hs, hm, hl, Option.bind_eq_bind, Option.bind_some, Option.pure_def]

theorem rindex_build_n {T sa : List Nat} {I : RIndex} (h : RIndex.build T sa = some I) : I.alphabet.C[I.alphabet.sigma]? = some I.n := by
  unfold RIndex.build at h
  simp only [Option.bind_eq_bind, Option.bind_eq_some_iff, Option.pure_def, Option.some.injEq] at h
  obtain ⟨b, -, marks, -, n, hn, rfl⟩ := h
  exact hn

theorem srindex_build_n {T sa : List Nat} {s : Nat} {I : SrIndex} (h : SrIndex.build T sa s = some I) :
    I.base.alphabet.C[I.base.alphabet.sigma]? = some I.base.n ∧ I.s = s := by
  unfold SrIndex.build at h
  simp only [Option.bind_eq_bind, Option.bind_eq_some_iff, Option.pure_def, Option.some.injEq] at h
  obtain ⟨b, -, idx, -, samples, -, bv, -, sub, -, marks, -, n, hn, rfl⟩ := h
  exact ⟨hn, rfl⟩

theorem srvalid_build_sr {T sa : List Nat} {s : Nat} {I : SrIndexValid} (h : SrIndexValid.build T sa s = some I) :
    SrIndex.build T sa s = some I.sr := by
  unfold SrIndexValid.build at h
  simp only [Option.bind_eq_bind, Option.bind_eq_some_iff, Option.pure_def, Option.some.injEq] at h
  obtain ⟨sr, hs, b, -, idx, -, sub, -, marks, -, v, -, ar, -, vm, -, rfl⟩ := h
  exact hs

theorem rcsabwt_build_n {T sa : List Nat} {I : RCSA} (h : RCSABwt.build T sa = some I) : I.alphabet.C[I.alphabet.sigma]? = some I.n := by
  unfold RCSABwt.build at h
  simp only [Option.bind_eq_bind, Option.bind_eq_some_iff, Option.pure_def, Option.some.injEq] at h
  obtain ⟨b, -, p, -, links, -, marks, -, n, hn, rfl⟩ := h
  exact hn

theorem rcsapsi_build_n {T sa : List Nat} {I : RCSA} (h : RCSAPsi.build T sa = some I) : I.alphabet.C[I.alphabet.sigma]? = some I.n := by
  unfold RCSAPsi.build at h
  simp only [Option.bind_eq_bind, Option.bind_eq_some_iff, Option.pure_def, Option.some.injEq] at h
  obtain ⟨b, -, p, -, heads, -, tails, -, marks, -, links, -, n, hn, rfl⟩ := h
  exact hn

/-- what is needed of a built sr-CSA -/
def CSAOK (I : SrCSA) (s : Nat) : Prop := I.alphabet.C[I.alphabet.sigma]? = some I.n ∧ I.s = s

theorem srcsa_build_n {T sa : List Nat} {s : Nat} {I : SrCSA} (h : SrCSA.build T sa s = some I) : CSAOK I s ∧ I.cumRuns = [] := by
  unfold SrCSA.build at h
  simp only [Option.bind_eq_bind, Option.bind_eq_some_iff, Option.pure_def, Option.some.injEq] at h
  obtain ⟨k, -, marks, -, pos, -, bv, -, n, hn, rfl⟩ := h
  exact ⟨⟨hn, rfl⟩, rfl⟩

theorem srcsa_buildSlim_n {T sa : List Nat} {s : Nat} {I : SrCSA} (h : SrCSA.buildSlim T sa s = some I) : CSAOK I s := by
  unfold SrCSA.buildSlim at h
  simp only [Option.bind_eq_bind, Option.bind_eq_some_iff, Option.pure_def, Option.some.injEq] at h
  obtain ⟨k, -, marks, -, sc, -, bv, -, sl, -, links, -, bv', -, n, hn, rfl⟩ := h
  exact ⟨hn, rfl⟩

theorem commonsPsi_n {T sa : List Nat} {s : Nat} {k : SrCSA.PsiCommons} (h : SrCSA.commonsPsi T sa s = some k) : CSAOK k.csa s := by
  unfold SrCSA.commonsPsi at h
  simp only [Option.bind_eq_bind, Option.bind_eq_some_iff, Option.pure_def, Option.some.injEq] at h
  obtain ⟨b, -, p, -, heads, -, tails, -, links, -, idx, -, samples, -, sub, -, marks, -, bv, -, cum, -, n, hn, rfl⟩ := h
  exact ⟨hn, rfl⟩

theorem srcsa_buildPsi_n {T sa : List Nat} {s : Nat} {I : SrCSA} (h : SrCSA.buildPsi T sa s = some I) : CSAOK I s := by
  unfold SrCSA.buildPsi at h
  simp only [Option.bind_eq_bind, Option.bind_eq_some_iff, Option.pure_def, Option.some.injEq] at h
  obtain ⟨k, hk, rfl⟩ := h
  exact commonsPsi_n hk

theorem srcsavalid_build_n {T sa : List Nat} {s : Nat} {I : SrCSAValid} (h : SrCSAValid.build T sa s = some I) :
    CSAOK I.csa s ∧ I.csa.cumRuns = [] := by
  unfold SrCSAValid.build at h
  simp only [Option.bind_eq_bind, Option.bind_eq_some_iff, Option.pure_def, Option.some.injEq] at h
  obtain ⟨J, hJ, k, -, marks, -, v, -, rfl⟩ := h
  exact srcsa_build_n hJ

theorem srcsavalid_buildSlim_n {T sa : List Nat} {s : Nat} {I : SrCSAValid} (h : SrCSAValid.buildSlim T sa s = some I) : CSAOK I.csa s := by
  unfold SrCSAValid.buildSlim at h
  simp only [Option.bind_eq_bind, Option.bind_eq_some_iff, Option.pure_def, Option.some.injEq] at h
  obtain ⟨J, hJ, k, -, marks, -, v, -, rfl⟩ := h
  exact srcsa_buildSlim_n hJ

theorem srcsavalid_buildPsi_n {T sa : List Nat} {s : Nat} {I : SrCSAValid} (h : SrCSAValid.buildPsi T sa s = some I) : CSAOK I.csa s := by
  unfold SrCSAValid.buildPsi at h
  simp only [Option.bind_eq_bind, Option.bind_eq_some_iff, Option.pure_def, Option.some.injEq] at h
  obtain ⟨k, hk, v, -, rfl⟩ := h
  exact commonsPsi_n hk

theorem srcsa_parts {I : SrCSA} {s : Nat} (h : CSAOK I s) (p : Parts) (ha : p.alphabet = I.alphabet)
    (hb : p.nav = .psi I.psi) (hs : p.samples = I.samples) (hm : p.marks = I.marks) (hl : p.markToSample = I.markToSample)
    (hi : p.samplesIdx = I.samplesIdx) (hc : p.cumRuns = I.cumRuns) : p.srCSA s = some I := by
  unfold Parts.srCSA
  rw [rcsa_parts (I := I.toRCSA) h.1 p ha hb hs hm hl]
  simp only [hi, hc, ← h.2, Option.bind_eq_bind, Option.bind_some, Option.pure_def]

theorem partsOf_ok {t : IndexType} {T sa : List Nat} {s : Nat} {p : Parts} (h : partsOf t T sa s = some p) :
    p.WF t ∧ p.assemble t s = buildIndex t T sa s := by
  cases t <;> simp only [partsOf, Option.map_eq_some_iff] at h <;> obtain ⟨I, hI, rfl⟩ := h <;>
    simp only [Parts.assemble, buildIndex, hI, Option.map_some]
  case rIndex =>
    refine ⟨⟨rfl, fun _ => rfl, fun _ => rfl, fun _ => rfl, fun _ => rfl⟩, ?_⟩
    rw [rIndex_parts (rindex_build_n hI) _ rfl rfl rfl rfl rfl]; rfl
  case srIndex =>
    obtain ⟨h1, h2⟩ := srindex_build_n hI
    refine ⟨⟨rfl, fun h => by (cases h), fun _ => rfl, fun _ => rfl, fun _ => rfl⟩, ?_⟩
    unfold Parts.srIndex
    rw [rIndex_parts h1 _ rfl rfl rfl rfl rfl, ← h2]; rfl
  case srIndexValidMark =>
    obtain ⟨h1, h2⟩ := srindex_build_n (srvalid_build_sr hI)
    refine ⟨⟨rfl, fun h => by (cases h), fun _ => rfl, fun h => by (cases h), fun _ => rfl⟩, ?_⟩
    unfold Parts.srIndexValid Parts.srIndex
    rw [rIndex_parts h1 _ rfl rfl rfl rfl rfl, ← h2]; rfl
  case srIndexValidArea =>
    obtain ⟨h1, h2⟩ := srindex_build_n (srvalid_build_sr hI)
    refine ⟨⟨rfl, fun h => by (cases h), fun _ => rfl, fun h => by (cases h), fun h => by (cases h)⟩, ?_⟩
    unfold Parts.srIndexValid Parts.srIndex
    rw [rIndex_parts h1 _ rfl rfl rfl rfl rfl, ← h2]; rfl
  case rcsaWithBWTRun =>
    refine ⟨⟨rfl, fun _ => rfl, fun _ => rfl, fun _ => rfl, fun _ => rfl⟩, ?_⟩
    rw [rcsa_parts (rcsabwt_build_n hI) _ rfl rfl rfl rfl rfl]; rfl
  case rcsaWithPsiRun =>
    refine ⟨⟨rfl, fun _ => rfl, fun _ => rfl, fun _ => rfl, fun _ => rfl⟩, ?_⟩
    rw [rcsa_parts (rcsapsi_build_n hI) _ rfl rfl rfl rfl rfl]; rfl
  case srCSA =>
    obtain ⟨h1, h2⟩ := srcsa_build_n hI
    refine ⟨⟨rfl, fun h => by (cases h), fun _ => h2, fun _ => rfl, fun _ => rfl⟩, ?_⟩
    rw [srcsa_parts h1 _ rfl rfl rfl rfl rfl rfl rfl]; rfl
  case srCSASlim =>
    refine ⟨⟨rfl, fun h => by (cases h), fun h => by (cases h), fun _ => rfl, fun _ => rfl⟩, ?_⟩
    rw [srcsa_parts (srcsa_buildSlim_n hI) _ rfl rfl rfl rfl rfl rfl rfl]; rfl
  case srCSAValidMark =>
    obtain ⟨h1, h2⟩ := srcsavalid_build_n hI
    refine ⟨⟨rfl, fun h => by (cases h), fun _ => h2, fun h => by (cases h), fun _ => rfl⟩, ?_⟩
    unfold Parts.srCSAValid
    rw [srcsa_parts h1 _ rfl rfl rfl rfl rfl rfl rfl]; rfl
  case srCSAValidArea =>
    obtain ⟨h1, h2⟩ := srcsavalid_build_n hI
    refine ⟨⟨rfl, fun h => by (cases h), fun _ => h2, fun h => by (cases h), fun h => by (cases h)⟩, ?_⟩
    unfold Parts.srCSAValid
    rw [srcsa_parts h1 _ rfl rfl rfl rfl rfl rfl rfl]; rfl
  case srCSASlimValidMark =>
    refine ⟨⟨rfl, fun h => by (cases h), fun h => by (cases h), fun h => by (cases h), fun _ => rfl⟩, ?_⟩
    unfold Parts.srCSAValid
    rw [srcsa_parts (srcsavalid_buildSlim_n hI) _ rfl rfl rfl rfl rfl rfl rfl]; rfl
  case srCSASlimValidArea =>
    refine ⟨⟨rfl, fun h => by (cases h), fun h => by (cases h), fun h => by (cases h), fun h => by (cases h)⟩, ?_⟩
    unfold Parts.srCSAValid
    rw [srcsa_parts (srcsavalid_buildSlim_n hI) _ rfl rfl rfl rfl rfl rfl rfl]; rfl
  case srCSAWithPsiRun =>
    refine ⟨⟨rfl, fun h => by (cases h), fun h => by (cases h), fun _ => rfl, fun _ => rfl⟩, ?_⟩
    rw [srcsa_parts (srcsa_buildPsi_n hI) _ rfl rfl rfl rfl rfl rfl rfl]; rfl
  case psiValidMark =>
    refine ⟨⟨rfl, fun h => by (cases h), fun h => by (cases h), fun h => by (cases h), fun _ => rfl⟩, ?_⟩
    unfold Parts.srCSAValid
    rw [srcsa_parts (srcsavalid_buildPsi_n hI) _ rfl rfl rfl rfl rfl rfl rfl]; rfl
  case psiValidArea =>
    refine ⟨⟨rfl, fun h => by (cases h), fun h => by (cases h), fun h => by (cases h), fun h => by (cases h)⟩, ?_⟩
    unfold Parts.srCSAValid
    rw [srcsa_parts (srcsavalid_buildPsi_n hI) _ rfl rfl rfl rfl rfl rfl rfl]; rfl

theorem partsOf_isSome (t : IndexType) (T sa : List Nat) (s : Nat) {q : Queries} (h : buildIndex t T sa s = some q) : ∃ p, partsOf t T sa s = some p := by
  cases t <;> simp only [buildIndex, Option.map_eq_some_iff] at h <;> obtain ⟨I, hI, -⟩ := h <;> simp only [partsOf, hI, Option.map_some] <;>
    exact ⟨_, rfl⟩

/-! ## Load from a cache -/

/-- the files of an index are in the cache -/
def Cache.Holds (C : Cache) (t : IndexType) (b : BvKind) (pre : Key) (p : Parts) : Prop :=
  ∀ a ∈ accesses t b, C (keyOf t pre a.slot) (if a.hash then some a.target.ty else none) = some (itemOf b p a.target).unbound

theorem accesses_base (t : IndexType) (b : BvKind) : ∀ a ∈ accesses t b, ∃ a' ∈ accesses t b, a'.slot = a.slot ∧ a'.hash = a.hash ∧
    a'.target = a.base := by
  cases t <;> cases b <;> decide +kernel

theorem Cache.Holds.cached {C : Cache} {t : IndexType} {b : BvKind} {pre : Key} {p : Parts} (h : C.Holds t b pre p) :
    ∀ a ∈ accesses t b, a.Cached C (keyOf t pre) (itemOf b p) := by
  intro a ha
  obtain ⟨a', ha', h1, h2, h3⟩ := accesses_base t b a ha
  refine ⟨h a ha, ?_⟩
  have := h a' ha'
  rw [h1, h2, h3] at this
  exact this

theorem holds_of_files {C : Cache} {t : IndexType} {b : BvKind} {s : Nat} {p : Parts}
    (h : ∀ f ∈ indexFiles t b s p, C f.1.1 f.1.2 = some f.2) : C.Holds t b (buildPrefix t s) p := by
  intro a ha
  exact h _ (List.mem_map.2 ⟨a, ha, rfl⟩)

/-- every item of the index is in the storage -/
def Storage.Full (S : Storage) (t : IndexType) (b : BvKind) (pre : Key) (p : Parts) : Prop :=
  ∀ w ∈ writes t b, S.find (w.key (keyOf t pre)) = some (itemOf b p w)

theorem Storage.Full.le {S S' : Storage} {t : IndexType} {b : BvKind} {pre : Key} {p : Parts} (h : S.Full t b pre p) (hle : S.Le S') :
    S'.Full t b pre p := fun w hw => hle _ _ (h w hw)

theorem Storage.Full.collect {S : Storage} {t : IndexType} {b : BvKind} {pre : Key} {p : Parts} (h : S.Full t b pre p) (hp : p.WF t) :
    collect t b (keyOf t pre) S = some p := by
  refine collect_of hp (fun w hw => ?_)
  rw [Storage.get_eq_some]
  exact ⟨h w hw, (coherent_items hp.nav pre).type w hw⟩

theorem collect_full {S : Storage} {t : IndexType} {b : BvKind} {pre : Key} {p : Parts} (h : Sri.collect t b (keyOf t pre) S = some p) :
    S.Full t b pre p := fun w hw => (Storage.get_eq_some.1 ((collect_items h).2 w hw)).1

theorem full_of_targets {S : Storage} {t : IndexType} {b : BvKind} {pre : Key} {p : Parts}
    (h : ∀ a ∈ accesses t b, S.find (a.target.key (keyOf t pre)) = some (itemOf b p a.target)) : S.Full t b pre p := by
  intro w hw
  obtain ⟨a, ha, rfl⟩ := List.mem_map.1 (writes_accessed t b w hw)
  exact h a ha

theorem loadCache_holds {I : Object} {C : Cache} {p : Parts} (hp : p.WF I.type) (hC : C.Holds I.type I.bv I.pre p) {S : Storage}
    (hS : Consistent (writes I.type I.bv) (keyOf I.type I.pre) (itemOf I.bv p) S) :
    ∃ S', I.loadCache K S C = some ({ I with keys := keyOf I.type I.pre }, S') ∧ S.Le S' ∧ S'.Full I.type I.bv I.pre p ∧
      Added (writes I.type I.bv) (keyOf I.type I.pre) (itemOf I.bv p) S S' := by
  obtain ⟨S', h1, -, h3, h4⟩ := runAll_cached (K := K) (coherent_items hp.nav I.pre) (accesses I.type I.bv) (accesses_fit I.type I.bv p) hC.cached hS
  refine ⟨S', ?_, runAll_le _ h1, full_of_targets h4, h3⟩
  have h1' : LoadState.runAll K (keyOf I.type I.pre) (loadAllItems I.type I.bv ++ constructAccesses I.type I.bv)
    { storage := S, source := .cache C } = some { storage := S', source := .cache C } := h1
  unfold Object.loadCache Object.loadInner
  simp only [h1', Option.bind_eq_bind, Option.bind_some, Option.pure_def]

theorem queries_full {I : Object} {p : Parts} (hp : p.WF I.type) (hk : I.keys = keyOf I.type I.pre) {S : Storage} (hS : S.Full I.type I.bv I.pre p) :
    I.queries S = p.assemble I.type I.rate := by
  unfold Object.queries
  rw [hk, hS.collect hp]; rfl

/-! ## Load from a stream -/

theorem serialize_full {I : Object} {p : Parts} (hp : p.WF I.type) (hk : I.keys = keyOf I.type I.pre) {S : Storage}
    (hS : S.Full I.type I.bv I.pre p) :
    I.serialize K S = (if I.type.rateInStream then K.encSize I.rate else []) ++ (writes I.type I.bv).flatMap (fun w => K.enc (itemOf I.bv p w)) := by
  unfold Object.serialize
  congr 1
  have : ∀ (l : List Write), (∀ w ∈ l, w ∈ writes I.type I.bv) → l.flatMap (serializeItem K S I.keys) = l.flatMap (fun w => K.enc (itemOf I.bv p w)) := by
    intro l
    induction l with
    | nil => intro _; rfl
    | cons w l ih =>
      intro h
      rw [List.flatMap_cons, List.flatMap_cons, ih (fun w' hw' => h w' (by simp [hw']))]
      congr 1
      have hw := h w (by simp)
      have := Storage.get_of_find (hS w hw)
      rw [(coherent_items hp.nav I.pre).type w hw] at this
      unfold serializeItem
      rw [hk, show keyOf I.type I.pre w.slot ++ w.part.suffix = w.key (keyOf I.type I.pre) from rfl, this]
  exact this _ (fun w hw => hw)

theorem flatMap_filter_nil {β γ : Type} (f : β → List γ) (q : β → Bool) (h : ∀ x, q x = false → f x = []) :
    ∀ l : List β, l.flatMap f = (l.filter q).flatMap f
  | [] => rfl
  | x :: l => by
    rw [List.filter_cons, List.flatMap_cons, flatMap_filter_nil f q h l]
    cases hq : q x with
    | true => rw [if_pos rfl, List.flatMap_cons]
    | false => rw [if_neg (by simp), h x hq, List.nil_append]

/-- the stream written is the stream read -/
theorem stream_order {V : Item → Prop} (hK : K.FaithfulOn V) (t : IndexType) (b : BvKind) (p : Parts) (hp : p.nav.type = navTy t)
    (h : b = .sd ∨ (t.overPositions && t.withMarks) = false) :
    (writes t b).flatMap (fun w => K.enc (itemOf b p w)) = (readOrder [] (accesses t b)).flatMap (fun w => K.enc (itemOf b p w)) := by
  rcases h with rfl | h
  · have key : ∀ l : List Write, (∀ w ∈ l, w.ty = itemTy t .sd w.slot w.part) → l.flatMap (fun w => K.enc (itemOf .sd p w)) =
        (l.filter (fun w => w.ty ≠ .sdSelect)).flatMap (fun w => K.enc (itemOf .sd p w)) := by
      intro l
      induction l with
      | nil => intro _; rfl
      | cons w l ih =>
        intro hl
        rw [List.filter_cons, List.flatMap_cons, ih (fun w' hw' => hl w' (by simp [hw']))]
        by_cases hw : w.ty = .sdSelect
        · rw [if_neg (by simp [hw])]
          have ht := itemOf_type .sd hp w
          rw [← hl w (by simp), hw] at ht
          have : K.enc (itemOf .sd p w) = [] := by
            cases hx : itemOf .sd p w <;> rw [hx] at ht <;> first | (cases ht; done) | exact hK.sdSelect _
          rw [this, List.nil_append]
        · rw [if_pos (by simp [hw]), List.flatMap_cons]
    have hr : ∀ w ∈ readOrder [] (accesses t .sd), w.ty = itemTy t .sd w.slot w.part := by cases t <;> decide +kernel
    rw [key _ (writes_ty t .sd), key _ hr, writes_order_sd]
  · rw [writes_order t b h]

theorem loadInner_stream {V : Item → Prop} (hK : K.FaithfulOn V) {I : Object} {p : Parts} (hp : p.WF I.type)
    (hV : ∀ w ∈ writes I.type I.bv, V (itemOf I.bv p w))
    (h : I.bv = .sd ∨ (I.type.overPositions && I.type.withMarks) = false) {S : Storage}
    (hS : ∀ w ∈ writes I.type I.bv, S.find (w.key (keyOf I.type I.pre)) = none) (rest : List α) :
    ∃ S', I.loadInner K { storage := S, source := .stream ((writes I.type I.bv).flatMap (fun w => K.enc (itemOf I.bv p w)) ++ rest) } =
        some ({ I with keys := keyOf I.type I.pre }, { storage := S', source := .stream rest }) ∧ S.Le S' ∧ S'.Full I.type I.bv I.pre p := by
  rw [stream_order hK I.type I.bv p hp.nav h]
  obtain ⟨S', h1, h2⟩ := runAll_stream hK (coherent_items hp.nav I.pre) hV (accesses I.type I.bv) [] rest (accesses_fit I.type I.bv p)
    (S := S) (by intro w hw; rw [if_neg (by simp)]; exact hS w hw)
  refine ⟨S', ?_, runAll_le _ h1, full_of_targets h2⟩
  have h1' : LoadState.runAll K (keyOf I.type I.pre) (loadAllItems I.type I.bv ++ constructAccesses I.type I.bv)
    { storage := S, source := .stream ((readOrder [] (accesses I.type I.bv)).flatMap (fun w => K.enc (itemOf I.bv p w)) ++ rest) } =
      some { storage := S', source := .stream rest } := h1
  unfold Object.loadInner
  simp only [h1', Option.bind_eq_bind, Option.bind_some, Option.pure_def]

end
end Sri

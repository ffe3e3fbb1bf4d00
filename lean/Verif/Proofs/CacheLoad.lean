import Verif.Proofs.CacheRun
/-! # Loading what construction left in a cache -/
namespace Sri
set_option autoImplicit false

/-- the file of a slot -/
def slotName (t : IndexType) : Slot → FileName
  | .alphabet => .alphabet
  | .navigate => if t.overBWT then .bwtRle else .psi
  | .samples =>
    if t.overBWT then (if t.sampled then .subLast else .lastTextPos)
    else if t.overPsiRuns then (if t.sampled then .subPsiFirst else .psiFirst)
    else if t.counted then .alphaSubFirst
    else if t.sampled then .subFirst else .firstTextPos
  | .marks =>
    if t.overBWT then (if t.sampled then .subFirstByLast else .firstTextPos)
    else if t.overPsiRuns then (if t.sampled then .subPsiLast else .psiLast)
    else if t.sampled then .subLastByFirst else .lastTextPos
  | .markToSample =>
    if t.overBWT then (if t.sampled then .subFirstToLast else .firstToLast)
    else if t.overPsiRuns then (if t.sampled then .subPsiLink else .psiLink)
    else if t.counted then .alphaSubLinks
    else if t.sampled then .subLastToFirst else .lastToFirst
  | .samplesIdx =>
    if t.overBWT then .subLastIdx
    else if t.overPsiRuns then .subPsiIdx
    else if t.counted then .alphaSubIdx else .subFirstPos
  | .runCumulativeCount => if t.overPsiRuns then .psiCum else .cumRuns
  | .validMarks => if t.overBWT then .validFirstMark else if t.overPsiRuns then .validPsiMark else .validLastMark
  | .validAreas => if t.overBWT then .validFirstArea else if t.overPsiRuns then .validPsiArea else .validLastArea

/-- the file that an access of load reads -/
def accessRef (t : IndexType) (a : Access) : FileRef :=
  (slotName t a.slot, if a.hash then some (if a.part = .self then a.ty else a.sty) else none)

theorem slotName_key (t : IndexType) (b : BvKind) : ∀ a ∈ accesses t b, (slotName t a.slot).key = keyName t a.slot ∧
    ((keyName t a.slot).1 = true → t.sampled = true) := by
  cases t <;> cases b <;> decide +kernel

theorem access_written (t : IndexType) (b : BvKind) : ∀ a ∈ accesses t b, accessRef t a ∈ outputsOf (program t b) := by
  cases t <;> cases b <;> decide +kernel

theorem access_named (t : IndexType) (b : BvKind) : ∀ a ∈ accesses t b, accessRef t a ≠ (.subPsiIdx, none) := by
  cases t <;> cases b <;> decide +kernel

theorem access_file {t : IndexType} {b : BvKind} {s : Nat} {a : Access} (ha : a ∈ accesses t b) :
    (keyOf t (buildPrefix t s) a.slot, if a.hash then some (if a.part = .self then a.ty else a.sty) else none) = (accessRef t a).file s := by
  obtain ⟨h1, h2⟩ := slotName_key t b a ha
  unfold accessRef FileRef.file
  dsimp only
  rw [h1]
  unfold keyOf
  cases hq : keyName t a.slot with
  | mk x nm =>
    rw [hq] at h2
    cases x with
    | false => rfl
    | true =>
      unfold buildPrefix
      rw [if_pos (h2 rfl)]

section
variable {T sa : List Nat} (v : BaseVals T sa) (w : ∀ s, RateVals v s)

/-- the items of an index -/
def partsVals (t : IndexType) (s : Nat) : Parts :=
  match t with
  | .rIndex => ⟨v.b.alphabet, .bwtRle v.b.bwtRle, v.b.runs.lastTextPos, v.markB, (linksPhiBackward v.b.runs.firstTextPos).2, [], [], [], []⟩
  | .srIndex => ⟨v.b.alphabet, .bwtRle v.b.bwtRle, (w s).samplesB, (w s).markB, sortIndices (w s).subB, (w s).idxBitsB, [], [], []⟩
  | .srIndexValidMark => ⟨v.b.alphabet, .bwtRle v.b.bwtRle, (w s).samplesB, (w s).markB, sortIndices (w s).subB, (w s).idxBitsB, [], (w s).validB, []⟩
  | .srIndexValidArea =>
    ⟨v.b.alphabet, .bwtRle v.b.bwtRle, (w s).samplesB, (w s).markB, sortIndices (w s).subB, (w s).idxBitsB, [], (w s).validB, (w s).areasB⟩
  | .rcsaWithBWTRun => ⟨v.b.alphabet, .psi v.p.core, v.b.runs.firstTextPos, v.markF, v.fl.2, [], [], [], []⟩
  | .rcsaWithPsiRun => ⟨v.b.alphabet, .psi v.p.core, v.heads, v.markP, v.pl.2, [], [], [], []⟩
  | .srCSA => ⟨v.b.alphabet, .psi v.p.core, (w s).samplesF, (w s).markF, sortIndices (w s).subF, (w s).posBitsF, [], [], []⟩
  | .srCSAValidMark => ⟨v.b.alphabet, .psi v.p.core, (w s).samplesF, (w s).markF, sortIndices (w s).subF, (w s).posBitsF, [], (w s).validF, []⟩
  | .srCSAValidArea =>
    ⟨v.b.alphabet, .psi v.p.core, (w s).samplesF, (w s).markF, sortIndices (w s).subF, (w s).posBitsF, [], (w s).validF, (w s).valF.map (·.2)⟩
  | .srCSASlim => ⟨v.b.alphabet, .psi v.p.core, (w s).slim.1, (w s).markF, (w s).slimLinks, (w s).slimIdx, v.sc.2, [], []⟩
  | .srCSASlimValidMark => ⟨v.b.alphabet, .psi v.p.core, (w s).slim.1, (w s).markF, (w s).slimLinks, (w s).slimIdx, v.sc.2, (w s).validF, []⟩
  | .srCSASlimValidArea =>
    ⟨v.b.alphabet, .psi v.p.core, (w s).slim.1, (w s).markF, (w s).slimLinks, (w s).slimIdx, v.sc.2, (w s).validF, (w s).valF.map (·.2)⟩
  | .srCSAWithPsiRun => ⟨v.b.alphabet, .psi v.p.core, (w s).samplesP, (w s).markP, sortIndices (w s).subP, (w s).idxBitsP, v.cum, [], []⟩
  | .psiValidMark => ⟨v.b.alphabet, .psi v.p.core, (w s).samplesP, (w s).markP, sortIndices (w s).subP, (w s).idxBitsP, v.cum, (w s).validP, []⟩
  | .psiValidArea =>
    ⟨v.b.alphabet, .psi v.p.core, (w s).samplesP, (w s).markP, sortIndices (w s).subP, (w s).idxBitsP, v.cum, (w s).validP, (w s).valP.map (·.2)⟩

variable {v w}

theorem partsOf_vals (t : IndexType) (s : Nat) : partsOf t T sa s = some (partsVals v w t s) := by
  have h1 : RIndex.build T sa = some ⟨v.b.alphabet, v.b.bwtRle, v.b.runs.lastTextPos, v.markB, (linksPhiBackward v.b.runs.firstTextPos).2, v.b.n⟩ := by
    unfold RIndex.build
    simp only [v.hb, v.hmarkB, v.hn', Option.bind_eq_bind, Option.bind_some, Option.pure_def]
  have h2 : SrIndex.build T sa s = some ⟨⟨v.b.alphabet, v.b.bwtRle, (w s).samplesB, (w s).markB, sortIndices (w s).subB, v.b.n⟩, (w s).idxBitsB, s⟩ := by
    unfold SrIndex.build
    simp only [v.hb, (w s).hidxB, (w s).hsamplesB, (w s).hidxBitsB, (w s).hsubB, (w s).hmarkB, v.hn', Option.bind_eq_bind, Option.bind_some, Option.pure_def]
  have h3 : SrIndexValid.build T sa s =
      some ⟨⟨⟨v.b.alphabet, v.b.bwtRle, (w s).samplesB, (w s).markB, sortIndices (w s).subB, v.b.n⟩, (w s).idxBitsB, s⟩, (w s).validB, (w s).areasB⟩ := by
    unfold SrIndexValid.build
    simp only [h2, v.hb, (w s).hidxB, (w s).hsubB, (w s).hmsB, (w s).hvalB, (w s).hareasB, (w s).hvalidB, Option.bind_eq_bind, Option.bind_some,
      Option.pure_def]
  have h4 : RCSABwt.build T sa = some ⟨⟨v.b.alphabet, v.p.core, v.b.n⟩, v.b.runs.firstTextPos, v.markF, v.fl.2⟩ := by
    unfold RCSABwt.build
    simp only [v.hb, v.hp, v.hfl, v.hmarkF, v.hn', Option.bind_eq_bind, Option.bind_some, Option.pure_def]
  have h5 : RCSAPsi.build T sa = some ⟨⟨v.b.alphabet, v.p.core, v.b.n⟩, v.heads, v.markP, v.pl.2⟩ := by
    unfold RCSAPsi.build
    simp only [v.hb, v.hp, v.hheads, v.htails, v.hmarkP, v.hpl, v.hn', Option.bind_eq_bind, Option.bind_some, Option.pure_def]
  have h6 : SrCSA.commons T sa s = some ⟨v.b, v.p, (w s).idxF, (w s).samplesF, (w s).subF, v.fl.1⟩ := by
    unfold SrCSA.commons
    simp only [v.hb, v.hp, v.hfl, (w s).hidxF, (w s).hsamplesF, (w s).hsubF, Option.bind_eq_bind, Option.bind_some, Option.pure_def]
  have h7 : SrCSA.build T sa s =
      some ⟨⟨⟨v.b.alphabet, v.p.core, v.b.n⟩, (w s).samplesF, (w s).markF, sortIndices (w s).subF⟩, (w s).posBitsF, [], s⟩ := by
    unfold SrCSA.build
    simp only [h6, (w s).hmarkF, (w s).hposF, (w s).hposBitsF, v.hn', Option.bind_eq_bind, Option.bind_some, Option.pure_def]
  have h8 : SrCSA.buildSlim T sa s =
      some ⟨⟨⟨v.b.alphabet, v.p.core, v.b.n⟩, (w s).slim.1, (w s).markF, (w s).slimLinks⟩, (w s).slimIdx, v.sc.2, s⟩ := by
    unfold SrCSA.buildSlim
    simp only [h6, (w s).hmarkF, v.hsc, (w s).hslimBits, (w s).hslim, (w s).hslimLinks, (w s).hslimIdx, v.hn', Option.bind_eq_bind, Option.bind_some,
      Option.pure_def]
  have h9 : SrCSA.commonsPsi T sa s =
      some ⟨⟨⟨⟨v.b.alphabet, v.p.core, v.b.n⟩, (w s).samplesP, (w s).markP, sortIndices (w s).subP⟩, (w s).idxBitsP, v.cum, s⟩, v.tails, (w s).subP⟩ := by
    unfold SrCSA.commonsPsi
    simp only [v.hb, v.hp, v.hheads, v.htails, v.hpl, (w s).hidxP, (w s).hsamplesP, (w s).hsubP, (w s).hmarkP, (w s).hidxBitsP, v.hcum, v.hn',
      Option.bind_eq_bind, Option.bind_some, Option.pure_def]
  have h10 : SrCSA.buildPsi T sa s =
      some ⟨⟨⟨v.b.alphabet, v.p.core, v.b.n⟩, (w s).samplesP, (w s).markP, sortIndices (w s).subP⟩, (w s).idxBitsP, v.cum, s⟩ := by
    unfold SrCSA.buildPsi
    simp only [h9, Option.bind_eq_bind, Option.bind_some, Option.pure_def]
  have v1 : SrCSAValid.validity (w s).msF (w s).subF = some ((w s).validF, (w s).valF.map (·.2)) := by
    rw [validity_eq, (w s).hvalF, Option.bind_some, (w s).hvalidF]; rfl
  have v2 : SrCSAValid.validity (sortBy (fun x => x) v.tails) (w s).subP = some ((w s).validP, (w s).valP.map (·.2)) := by
    rw [validity_eq, (w s).hvalP, Option.bind_some, (w s).hvalidP]; rfl
  cases t <;> simp only [partsOf, h1, h2, h3, h4, h5, h7, h8, h10, SrCSAValid.build, SrCSAValid.buildSlim, SrCSAValid.buildPsi, h6, h9, (w s).hmsF,
    v1, v2, Option.bind_eq_bind, Option.bind_some, Option.pure_def, Option.map_some] <;> rfl

theorem ideal_item (t : IndexType) (b : BvKind) (s : Nat) : ∀ a ∈ accesses t b,
    ideal v w s (accessRef t a) = some (itemOf b (partsVals v w t s) ⟨a.slot, a.part, if a.part = .self then a.ty else a.sty⟩).unbound := by
  intro a ha
  cases t <;> cases b <;>
    simp only [accesses, loadAllItems, constructAccesses, IndexType.sampled, IndexType.counted, IndexType.withMarks, IndexType.withAreas,
      IndexType.overPositions, if_true, Bool.false_eq_true, if_false, List.append_nil, List.cons_append, List.nil_append, List.mem_cons,
      List.not_mem_nil, or_false] at ha <;>
    (repeat' rcases ha with rfl | ha) <;> rfl

/-- after a construction that leaves all that the index reads the cache has the index -/
theorem ran_hasIndex_of {t : IndexType} {b : BvKind} {s : Nat} {P P' : Process} {es : List CacheEvent} {outs : List FileRef}
    (h : Ran (ideal v w) s P outs es P') (ho : ∀ a ∈ accesses t b, accessRef t a ∈ outs) : P'.cache.HasIndex t b T sa s := by
  refine ⟨_, partsOf_vals (v := v) (w := w) t s, ?_⟩
  intro f hf
  obtain ⟨a, ha, rfl⟩ := List.mem_map.1 hf
  dsimp only
  unfold Process.cache
  rw [access_file ha, h.sound.map.fileName (access_named t b a ha)]
  obtain ⟨c, hc⟩ := Option.isSome_iff_exists.1 (h.all _ (ho a ha))
  cases c with
  | none => exact absurd hc (h.sound.whole _)
  | some x =>
    rw [hc, Option.bind_some, id, ← h.sound.right s _ x hc, ideal_item t b s a ha]

/-- after a complete construction the cache has the index -/
theorem ran_hasIndex {t : IndexType} {b : BvKind} {s : Nat} {P P' : Process} {es : List CacheEvent}
    (h : Ran (ideal v w) s P (outputsOf (program t b)) es P') : P'.cache.HasIndex t b T sa s :=
  ran_hasIndex_of h (access_written t b)

end
end Sri

import Verif.Proofs.CacheSteps
import Verif.Proofs.ObjectLoad
import Verif.Proofs.Base
import Verif.Props.AllIndexes
/-! # What every file of the cache should hold for a text -/
namespace Sri
set_option autoImplicit false

/-- the values of the files without a rate -/
structure BaseVals (T sa : List Nat) where
  b : BaseItems
  p : PsiItems
  fl : List Nat × List Nat
  heads : List Nat
  tails : List Nat
  pl : List Nat × List Nat
  sc : List Nat × List Nat
  cum : List Nat
  markB : List Bool
  markF : List Bool
  markP : List Bool
  hb : constructBase T sa = some b
  hn : b.alphabet.C[b.alphabet.C.length - 1]? = some b.n
  hn' : b.alphabet.C[b.alphabet.sigma]? = some b.n
  hlen : b.runs.first.length = b.runs.firstTextPos.length
  hp : constructPsiItems b = some p
  hfl : linksPhiForwardBWT b p = some fl
  hheads : constructPsiRuns b b.runs.first b.runs.firstTextPos = some heads
  htails : constructPsiRuns b b.runs.last b.runs.lastTextPos = some tails
  hpl : linksPhiForwardPsi tails = some pl
  hsc : SrCSA.sortedByAlphabet p.core b.runs.first (List.range p.core.parts.length) 0 = some sc
  hcum : SrCSA.cumulative p.core (List.range p.core.parts.length) 0 = some cum
  hmarkB : bitVectorFromInts b.runs.firstTextPos b.n false = some markB
  hmarkF : bitVectorFromInts b.runs.lastTextPos b.n false = some markF
  hmarkP : bitVectorFromInts tails b.n false = some markP

/-- the values of the files of a rate -/
structure RateVals {T sa : List Nat} (v : BaseVals T sa) (s : Nat) where
  idxB : List Nat
  samplesB : List Nat
  idxBitsB : List Bool
  subB : List Nat
  markB : List Bool
  msB : List Nat
  valB : List (Nat × Nat × Nat)
  areasB : List Nat
  validB : List Bool
  hidxB : SrIndex.subsampleIdx s v.b.runs.lastTextPos (sortIndices v.b.runs.lastTextPos) (linksPhiBackward v.b.runs.firstTextPos).2 = some idxB
  hsamplesB : idxB.mapM (fun i => v.b.runs.lastTextPos[i]?) = some samplesB
  hidxBitsB : bitVectorFromInts idxB v.b.runs.last.length false = some idxBitsB
  hsubB : SrIndex.submarks v.b.runs.firstTextPos idxB = some subB
  hmarkB : bitVectorFromInts subB v.b.n false = some markB
  hmsB : (linksPhiBackward v.b.runs.firstTextPos).1.mapM (fun i => v.b.runs.firstTextPos[i]?) = some msB
  hvalB : computeSubmarksValidity msB (sortBy (fun x => x) subB) = some valB
  hareasB : valB.mapM (fun q => csub q.2.2 q.2.1) = some areasB
  hvalidB : bitVectorFromInts (valB.map (·.1)) subB.length true = some validB
  idxF : List Nat
  samplesF : List Nat
  subF : List Nat
  markF : List Bool
  posF : List Nat
  posBitsF : List Bool
  msF : List Nat
  valF : List (Nat × Nat)
  validF : List Bool
  hidxF : SrIndex.subsampleIdx s v.b.runs.firstTextPos (sortIndices v.b.runs.firstTextPos).reverse v.fl.2 = some idxF
  hsamplesF : idxF.mapM (fun i => v.b.runs.firstTextPos[i]?) = some samplesF
  hsubF : SrCSA.submarksBWT v.b v.p idxF = some subF
  hmarkF : bitVectorFromInts subF v.b.n false = some markF
  hposF : idxF.mapM (fun i => v.b.runs.first[i]?) = some posF
  hposBitsF : bitVectorFromInts posF v.b.n false = some posBitsF
  hmsF : v.fl.1.mapM (fun i => v.b.runs.lastTextPos[i]?) = some msF
  hvalF : Steps.validityInts msF subF = some valF
  hvalidF : bitVectorFromInts (valF.map (·.1)) subF.length true = some validF
  slimBits : List Bool
  slim : List Nat × List Nat × List Nat
  slimLinks : List Nat
  slimIdx : List Bool
  hslimBits : bitVectorFromInts idxF v.sc.1.length false = some slimBits
  hslim : SrCSA.slimLoop slimBits samplesF 0 0 (List.replicate idxF.length 0) v.sc.1 = some slim
  hslimLinks : (sortIndices subF).mapM (fun i => slim.2.2[i]?) = some slimLinks
  hslimIdx : bitVectorFromInts slim.2.1 v.b.runs.first.length false = some slimIdx
  idxP : List Nat
  samplesP : List Nat
  subP : List Nat
  markP : List Bool
  idxBitsP : List Bool
  valP : List (Nat × Nat)
  validP : List Bool
  hidxP : SrIndex.subsampleIdx s v.heads (sortIndices v.heads).reverse v.pl.2 = some idxP
  hsamplesP : idxP.mapM (fun i => v.heads[i]?) = some samplesP
  hsubP : SrCSA.submarksPsi v.tails v.heads.length idxP = some subP
  hmarkP : bitVectorFromInts subP v.b.n false = some markP
  hidxBitsP : bitVectorFromInts idxP v.heads.length false = some idxBitsP
  hvalP : Steps.validityInts (sortBy (fun x => x) v.tails) subP = some valP
  hvalidP : bitVectorFromInts (valP.map (·.1)) subP.length true = some validP

theorem validity_eq (marks sub : List Nat) :
    SrCSAValid.validity marks sub = (Steps.validityInts marks sub).bind (fun q =>
      (bitVectorFromInts (q.map (·.1)) sub.length true).map (fun bv => (bv, q.map (·.2)))) := by
  unfold SrCSAValid.validity Steps.validityInts
  simp only [Option.bind_eq_bind, Option.bind_assoc, Option.pure_def]
  congr 1; funext l; congr 1; funext q
  cases bitVectorFromInts (q.map (·.1)) sub.length true <;> rfl

section
variable {T sa : List Nat}

theorem baseVals_exist (hT : IsText T) (hsa : IsSA T sa) (hn : T.length < 2^64) : Nonempty (BaseVals T sa) := by
  obtain ⟨b, T', hb, hok⟩ := base_build hT hsa
  have e1 := fun t => (buildIndex_exact t hT hsa hn 1).choose_spec.1
  have h1 := e1 .rIndex
  have h2 := e1 .rcsaWithBWTRun
  have h3 := e1 .rcsaWithPsiRun
  have h4 := e1 .srCSASlim
  have h5 := e1 .srCSAWithPsiRun
  simp only [buildIndex, Option.map_eq_some_iff] at h1 h2 h3 h4 h5
  obtain ⟨I1, h1, -⟩ := h1
  obtain ⟨I2, h2, -⟩ := h2
  obtain ⟨I3, h3, -⟩ := h3
  obtain ⟨I4, h4, -⟩ := h4
  obtain ⟨I5, h5, -⟩ := h5
  unfold RIndex.build at h1
  unfold RCSABwt.build at h2
  unfold RCSAPsi.build at h3
  unfold SrCSA.buildSlim SrCSA.commons at h4
  unfold SrCSA.buildPsi SrCSA.commonsPsi at h5
  simp only [hb, Option.bind_eq_bind, Option.bind_some, Option.pure_def, Option.bind_eq_some_iff] at h1 h2 h3
  obtain ⟨markB, hmarkB, -⟩ := h1
  obtain ⟨p, hp, fl, hfl, markF, hmarkF, -⟩ := h2
  obtain ⟨p', hp', heads, hheads, tails, htails, markP, hmarkP, pl, hpl, -⟩ := h3
  rw [hp] at hp'; cases hp'
  simp only [hb, hp, hfl, Option.bind_eq_bind, Option.bind_some, Option.pure_def] at h4
  simp only [Option.bind_eq_some_iff] at h4
  obtain ⟨k, ⟨_, -, _, -, _, -, hk⟩, _, -, sc, hsc, -⟩ := h4
  cases hk
  simp only [hb, hp, hheads, htails, hpl, Option.bind_eq_bind, Option.bind_some, Option.pure_def] at h5
  simp only [Option.bind_eq_some_iff] at h5
  obtain ⟨k, ⟨_, -, _, -, _, -, _, -, _, -, cum, hcum, -⟩, -⟩ := h5
  have hσ : b.alphabet.C[b.alphabet.sigma]? = some b.n := by
    rw [hok.n, hok.compact.C _ (Nat.le_refl _), cumC, List.countP_eq_length.2]
    intro x hx
    exact decide_eq_true (hok.compact.lt x hx)
  refine ⟨{
    b := b, p := p, fl := fl, heads := heads, tails := tails, pl := pl, sc := sc, cum := cum, markB := markB, markF := markF, markP := markP,
    hb := hb, hn := by rw [hok.compact.Clen, Nat.add_sub_cancel]; exact hσ
    hn' := hσ
    hlen := by rw [hok.first, hok.firstTextPos]; simp [headPos]
    hp := hp, hfl := hfl, hheads := hheads, htails := htails, hpl := hpl, hsc := hsc, hcum := hcum, hmarkB := hmarkB, hmarkF := hmarkF, hmarkP := hmarkP }⟩

theorem rateVals_exist (hT : IsText T) (hsa : IsSA T sa) (hn : T.length < 2^64) (v : BaseVals T sa) (s : Nat) : Nonempty (RateVals v s) := by
  have e1 := fun t => (buildIndex_exact t hT hsa hn s).choose_spec.1
  have h1 := e1 .srIndexValidArea
  have h2 := e1 .srCSAValidArea
  have h3 := e1 .srCSASlim
  have h4 := e1 .psiValidArea
  simp only [buildIndex, Option.map_eq_some_iff] at h1 h2 h3 h4
  obtain ⟨I1, h1, -⟩ := h1
  obtain ⟨I2, h2, -⟩ := h2
  obtain ⟨I3, h3, -⟩ := h3
  obtain ⟨I4, h4, -⟩ := h4
  unfold SrIndexValid.build SrIndex.build at h1
  unfold SrCSAValid.build SrCSA.build SrCSA.commons at h2
  unfold SrCSA.buildSlim SrCSA.commons at h3
  unfold SrCSAValid.buildPsi SrCSA.commonsPsi at h4
  simp only [v.hb, v.hp, v.hfl, v.hheads, v.htails, v.hpl, v.hsc, Option.bind_eq_bind, Option.bind_some, Option.pure_def, Option.bind_assoc,
    validity_eq] at h1 h2 h3 h4
  simp only [Option.bind_eq_some_iff, Option.map_eq_some_iff] at h1 h2 h3 h4
  obtain ⟨idxB, hidxB, samplesB, hsamplesB, idxBitsB, hidxBitsB, subB, hsubB, markB, hmarkB, _, -, idxB', hidxB', subB', hsubB', msB, hmsB,
    valB, hvalB, areasB, hareasB, validB, hvalidB, -⟩ := h1
  obtain ⟨idxF, hidxF, samplesF, hsamplesF, subF, hsubF, markF, hmarkF, posF, hposF, posBitsF, hposBitsF, _, -, idxF', hidxF', samplesF', -,
    subF', hsubF', msF, hmsF, valF, hvalF, bvF, ⟨validF, hvalidF, -⟩, -⟩ := h2
  obtain ⟨idxF2, hidxF2, samplesF2, hsamplesF2, subF2, hsubF2, markF2, hmarkF2, slimBits, hslimBits, slim, hslim, slimLinks, hslimLinks, slimIdx,
    hslimIdx, -⟩ := h3
  obtain ⟨idxP, hidxP, samplesP, hsamplesP, subP, hsubP, markP, hmarkP, idxBitsP, hidxBitsP, _, -, _, -, valP, hvalP, bvP, ⟨validP, hvalidP, -⟩, -⟩ := h4
  rw [hidxB] at hidxB'; cases hidxB'
  rw [hsubB] at hsubB'; cases hsubB'
  rw [hidxF] at hidxF' hidxF2; cases hidxF'; cases hidxF2
  rw [hsamplesF] at hsamplesF2; cases hsamplesF2
  rw [hsubF] at hsubF' hsubF2; cases hsubF'; cases hsubF2
  exact ⟨{
    idxB := idxB, samplesB := samplesB, idxBitsB := idxBitsB, subB := subB, markB := markB, msB := msB, valB := valB, areasB := areasB,
    validB := validB, hidxB := hidxB, hsamplesB := hsamplesB, hidxBitsB := hidxBitsB, hsubB := hsubB, hmarkB := hmarkB, hmsB := hmsB,
    hvalB := hvalB, hareasB := hareasB, hvalidB := hvalidB,
    idxF := idxF, samplesF := samplesF, subF := subF, markF := markF, posF := posF, posBitsF := posBitsF, msF := msF, valF := valF, validF := validF,
    hidxF := hidxF, hsamplesF := hsamplesF, hsubF := hsubF, hmarkF := hmarkF, hposF := hposF, hposBitsF := hposBitsF, hmsF := hmsF,
    hvalF := hvalF, hvalidF := hvalidF,
    slimBits := slimBits, slim := slim, slimLinks := slimLinks, slimIdx := slimIdx, hslimBits := hslimBits, hslim := hslim,
    hslimLinks := hslimLinks, hslimIdx := hslimIdx,
    idxP := idxP, samplesP := samplesP, subP := subP, markP := markP, idxBitsP := idxBitsP, valP := valP, validP := validP, hidxP := hidxP,
    hsamplesP := hsamplesP, hsubP := hsubP, hmarkP := hmarkP, hidxBitsP := hidxBitsP, hvalP := hvalP, hvalidP := hvalidP }⟩

end
end Sri

import Verif.Model.AllIndexes
import Verif.Model.IntAlphabet
/-! # Every class with an integer alphabet (`t_width == 0`)

The construction of every class begins with constructIndexBaseItems<t_width> and goes on from the items it leaves. The functions after it are
the same program for both widths: they read the alphabet, the run-length BWT (always an `RLEString<>`) and vectors of integers that do not
depend on the width. So an index at width 0 is what those functions make of the items of `constructBaseRef`. Here they are written from the
items on; `build = constructBase >>= ofBase` for each (Proofs/IntClasses), so that they are the functions of the byte width. -/
namespace Sri
set_option autoImplicit false

/-- constructRIndex after constructIndexBaseItems (r_index.h:299-321), and load -/
def RIndex.ofBase (b : BaseItems) : Option RIndex := do
  let links := linksPhiBackward b.runs.firstTextPos
  let marks ← bitVectorFromInts b.runs.firstTextPos b.n false
  let n ← b.alphabet.C[b.alphabet.sigma]?
  return { alphabet := b.alphabet, bwtRle := b.bwtRle, samples := b.runs.lastTextPos, marks := marks,
           markToSample := links.2, n := n }

/-- constructSRI after constructIndexBaseItems (sr_index.h:486-542), and load -/
def SrIndex.ofBase (b : BaseItems) (s : Nat) : Option SrIndex := do
  let links := linksPhiBackward b.runs.firstTextPos
  let sortedIdx := sortIndices b.runs.lastTextPos
  let idx ← subsampleIdx s b.runs.lastTextPos sortedIdx links.2
  let samples ← idx.mapM (fun i => b.runs.lastTextPos[i]?)
  let samplesIdx ← bitVectorFromInts idx b.runs.last.length false
  let sub ← submarks b.runs.firstTextPos idx
  let marks ← bitVectorFromInts sub b.n false
  let n ← b.alphabet.C[b.alphabet.sigma]?
  return { base := { alphabet := b.alphabet, bwtRle := b.bwtRle, samples := samples, marks := marks,
                     markToSample := sortIndices sub, n := n },
           samplesIdx := samplesIdx, s := s }

/-- constructSRIValidMark after constructIndexBaseItems (sr_index.h:546-571, 687-739), and load -/
def SrIndexValid.ofBase (b : BaseItems) (s : Nat) : Option SrIndexValid := do
  let sr ← SrIndex.ofBase b s
  let links := linksPhiBackward b.runs.firstTextPos
  let sortedIdx := sortIndices b.runs.lastTextPos
  let idx ← SrIndex.subsampleIdx s b.runs.lastTextPos sortedIdx links.2
  let sub ← SrIndex.submarks b.runs.firstTextPos idx
  let marks ← links.1.mapM (fun i => b.runs.firstTextPos[i]?)
  let validity ← computeSubmarksValidity marks (sortBy (fun x => x) sub)
  let areas ← validity.mapM (fun q => csub q.2.2 q.2.1)
  let validMarks ← bitVectorFromInts (validity.map (·.1)) sub.length true
  return { sr := sr, validMarks := validMarks, validAreas := areas }

/-- constructRCSAWithBWTRuns after constructIndexBaseItems (r_csa.h:355-378), and load -/
def RCSABwt.ofBase (b : BaseItems) : Option RCSA := do
  let p ← constructPsiItems b
  let links ← linksPhiForwardBWT b p
  let marks ← bitVectorFromInts b.runs.lastTextPos b.n false
  let n ← b.alphabet.C[b.alphabet.sigma]?
  return { alphabet := b.alphabet, psi := p.core, n := n, samples := b.runs.firstTextPos, marks := marks, markToSample := links.2 }

/-- constructItems(RCSAWithPsiRun) after constructIndexBaseItems (r_csa.h:632-676), and load -/
def RCSAPsi.ofBase (b : BaseItems) : Option RCSA := do
  let p ← constructPsiItems b
  let heads ← constructPsiRuns b b.runs.first b.runs.firstTextPos
  let tails ← constructPsiRuns b b.runs.last b.runs.lastTextPos
  let marks ← bitVectorFromInts tails b.n false
  let links ← linksPhiForwardPsi tails
  let n ← b.alphabet.C[b.alphabet.sigma]?
  return { alphabet := b.alphabet, psi := p.core, n := n, samples := heads, marks := marks, markToSample := links.2 }

/-- the common part of SrCSA and SrCSASlim after constructIndexBaseItems (r_csa.h:355-378, sr_csa.h:876-966, 1021-1050) -/
def SrCSA.commonsOf (b : BaseItems) (s : Nat) : Option Commons := do
  let p ← constructPsiItems b
  let links ← linksPhiForwardBWT b p
  let idx ← SrIndex.subsampleIdx s b.runs.firstTextPos (sortIndices b.runs.firstTextPos).reverse links.2
  let samples ← idx.mapM (fun i => b.runs.firstTextPos[i]?)
  let sub ← submarksBWT b p idx
  return { base := b, psi := p, idx := idx, samples := samples, sub := sub, sortedMarksIdx := links.1 }

/-- construct(SrCSA) after the common part (sr_csa.h:806-828, 1151-1166), and load -/
def SrCSA.ofCommons (k : Commons) (s : Nat) : Option SrCSA := do
  let marks ← bitVectorFromInts k.sub k.base.n false
  let pos ← k.idx.mapM (fun i => k.base.runs.first[i]?)
  let bv ← bitVectorFromInts pos k.base.n false
  let n ← k.base.alphabet.C[k.base.alphabet.sigma]?
  return { alphabet := k.base.alphabet, psi := k.psi.core, n := n, samples := k.samples, marks := marks, markToSample := sortIndices k.sub,
           samplesIdx := bv, cumRuns := [], s := s }

/-- construct(SrCSASlim) after the common part (sr_csa.h:766-792, 1052-1149), and load -/
def SrCSA.slimOfCommons (k : Commons) (s : Nat) : Option SrCSA := do
  let marks ← bitVectorFromInts k.sub k.base.n false
  let (sorted, cum) ← sortedByAlphabet k.psi.core k.base.runs.first (List.range k.psi.core.parts.length) 0
  let idxBv ← bitVectorFromInts k.idx sorted.length false
  let (samples, idxSorted, toSorted) ← slimLoop idxBv k.samples 0 0 (List.replicate k.idx.length 0) sorted
  let links ← (sortIndices k.sub).mapM (fun i => toSorted[i]?)
  let bv ← bitVectorFromInts idxSorted k.base.runs.first.length false
  let n ← k.base.alphabet.C[k.base.alphabet.sigma]?
  return { alphabet := k.base.alphabet, psi := k.psi.core, n := n, samples := samples, marks := marks, markToSample := links,
           samplesIdx := bv, cumRuns := cum, s := s }

/-- constructItems(SrCSAWithPsiRun) after constructIndexBaseItems (r_csa.h:632-676, sr_csa_psi.h:473-729), and load -/
def SrCSA.commonsPsiOf (b : BaseItems) (s : Nat) : Option PsiCommons := do
  let p ← constructPsiItems b
  let heads ← constructPsiRuns b b.runs.first b.runs.firstTextPos
  let tails ← constructPsiRuns b b.runs.last b.runs.lastTextPos
  let links ← linksPhiForwardPsi tails
  let idx ← SrIndex.subsampleIdx s heads (sortIndices heads).reverse links.2
  let samples ← idx.mapM (fun i => heads[i]?)
  let sub ← submarksPsi tails heads.length idx
  let marks ← bitVectorFromInts sub b.n false
  let bv ← bitVectorFromInts idx heads.length false
  let cum ← cumulative p.core (List.range p.core.parts.length) 0
  let n ← b.alphabet.C[b.alphabet.sigma]?
  return { csa := { alphabet := b.alphabet, psi := p.core, n := n, samples := samples, marks := marks, markToSample := sortIndices sub,
                    samplesIdx := bv, cumRuns := cum, s := s }, tails := tails, sub := sub }

/-- the validity information over SrCSA and SrCSASlim (sr_csa.h:832-874) -/
def SrCSAValid.ofCommons (k : SrCSA.Commons) (I : SrCSA) : Option SrCSAValid := do
  let marks ← k.sortedMarksIdx.mapM (fun i => k.base.runs.lastTextPos[i]?)
  let (bv, areas) ← validity marks k.sub
  return { csa := I, validMarks := bv, validAreas := areas }

/-- the validity information over SrCSAWithPsiRun (sr_csa_psi.h:733-757, 804-830) -/
def SrCSAValid.psiOfCommons (k : SrCSA.PsiCommons) : Option SrCSAValid := do
  let (bv, areas) ← validity (sortBy (fun x => x) k.tails) k.sub
  return { csa := k.csa, validMarks := bv, validAreas := areas }

/-- the index of the given type made of the base items, as `buildIndex` -/
def indexOfBase (t : IndexType) (b : BaseItems) (s : Nat) : Option Queries :=
  match t with
  | .rIndex => (RIndex.ofBase b).map (fun I => ⟨I.count, I.locate⟩)
  | .srIndex => (SrIndex.ofBase b s).map (fun I => ⟨I.count, I.locate⟩)
  | .srIndexValidMark => (SrIndexValid.ofBase b s).map (fun I => ⟨I.countMark, I.locateMark⟩)
  | .srIndexValidArea => (SrIndexValid.ofBase b s).map (fun I => ⟨I.countArea, I.locateArea⟩)
  | .rcsaWithBWTRun => (RCSABwt.ofBase b).map (fun I => ⟨RCSABwt.count I, RCSABwt.locate I⟩)
  | .rcsaWithPsiRun => (RCSAPsi.ofBase b).map (fun I => ⟨RCSAPsi.count I, RCSAPsi.locate I⟩)
  | .srCSA => do
    let k ← SrCSA.commonsOf b s
    let I ← SrCSA.ofCommons k s
    return ⟨I.count, I.locate⟩
  | .srCSASlim => do
    let k ← SrCSA.commonsOf b s
    let I ← SrCSA.slimOfCommons k s
    return ⟨I.countSlim, I.locateSlim⟩
  | .srCSAValidMark => do
    let k ← SrCSA.commonsOf b s
    let I ← SrCSA.ofCommons k s
    let V ← SrCSAValid.ofCommons k I
    return ⟨V.countMark, V.locateMark⟩
  | .srCSAValidArea => do
    let k ← SrCSA.commonsOf b s
    let I ← SrCSA.ofCommons k s
    let V ← SrCSAValid.ofCommons k I
    return ⟨V.countArea, V.locateArea⟩
  | .srCSASlimValidMark => do
    let k ← SrCSA.commonsOf b s
    let I ← SrCSA.slimOfCommons k s
    let V ← SrCSAValid.ofCommons k I
    return ⟨V.countMarkSlim, V.locateMarkSlim⟩
  | .srCSASlimValidArea => do
    let k ← SrCSA.commonsOf b s
    let I ← SrCSA.slimOfCommons k s
    let V ← SrCSAValid.ofCommons k I
    return ⟨V.countAreaSlim, V.locateAreaSlim⟩
  | .srCSAWithPsiRun => do
    let k ← SrCSA.commonsPsiOf b s
    return ⟨k.csa.countSlim, k.csa.locateSlim⟩
  | .psiValidMark => do
    let k ← SrCSA.commonsPsiOf b s
    let V ← SrCSAValid.psiOfCommons k
    return ⟨V.countMarkSlim, V.locateMarkSlim⟩
  | .psiValidArea => do
    let k ← SrCSA.commonsPsiOf b s
    let V ← SrCSAValid.psiOfCommons k
    return ⟨V.countAreaSlim, V.locateAreaSlim⟩

/-- get_symbol of every class (r_index.h:276, r_csa.h:257, 617) takes its argument as a `char` and casts it to `uint8_t`: of a symbol of a
    pattern of integers the lowest eight bits are left. (For a text of bytes that is every symbol as it is.) -/
def throughChar (P : List Nat) : List Nat := P.map (· % 256)

/-- an index with an integer alphabet over the text `T` with suffix array `sa`; its queries take patterns of integers
    (the templates `Count` and `Locate`, index_base.h:235-254, 269-283) -/
def buildIndexRef (t : IndexType) (T sa : List Nat) (s : Nat) : Option Queries := do
  let b ← constructBaseRef T sa
  let Q ← indexOfBase t b s
  return ⟨fun P => Q.count (throughChar P), fun P => Q.locate (throughChar P)⟩

end Sri

import Verif.Model.RCSA
import Verif.Model.SrIndex
/-! # sr_csa.h, sr_csa_psi.h: SrCSA, SrCSASlim, SrCSAWithPsiRun and their versions with validity marks and areas -/
namespace Sri
set_option autoImplicit false

/-- Run of SrCSASlim and SrCSAWithPsiRun (sr_csa.h:305-315, sr_csa_psi.h:172-182). The Run of SrCSA (sr_csa.h:495-498) has only the first
    two members; the others are left at their defaults and never read. -/
structure FRun where
  start : Nat
  stop : Nat
  c : Nat
  rank : Nat
  isRunStart : Bool
deriving Repr, DecidableEq

/-- RunDataExt of SrCSASlim and SrCSAWithPsiRun (sr_csa.h:267-275, sr_csa_psi.h:121-124). RunData of SrCSA (r_csa.h) is `pos` alone. -/
structure FData where
  pos : Nat
  c : Nat
  rank : Nat
  isRunStart : Bool
deriving Repr, DecidableEq

/-- the items that SrCSA, SrCSASlim and SrCSAWithPsiRun load on top of those of the r-CSA (sr_csa.h:221-228, 430-435,
    sr_csa_psi.h:82-89): the bit vector of the sampled runs (of the sampled positions for SrCSA), the cumulative number of runs per symbol
    (not used by SrCSA) and the rate `s` -/
structure SrCSA extends RCSA where
  samplesIdx : List Bool
  cumRuns : List Nat
  s : Nat
deriving Repr, DecidableEq

/-- buildComputeSAValueForward (tools.h:325-338, 353-356). `-1 * n_jumps` wraps around modulo 2^64 and the sum wraps back; a sum that
    would be negative is a fault here. -/
def saValueForward {β : Type} (getSample : β → Option (Option Nat)) (navigate : β → Option β) (fuel n : Nat) (d : β) : Option Nat := do
  let (x, j) ← findSample getSample navigate fuel d
  let y ← csub (x + 1 + n) j
  cmod y n

/-- the functors in which the variants differ -/
structure ForwOps where
  getSampleRun : FRun → Option (Option Nat)
  getSampleData : FData → Option (Option Nat)
  splitRange : Nat → Nat → Option (List FRun)
  psiData : FData → Option FData
  create : Range → Nat → RangeRunLF → Nat → Option (StepData FData)

namespace SrCSA

/-- constructCreateRun (sr_csa.h:334-340, sr_csa_psi.h:225-229) over the report of psi.h. The one of SrCSA (sr_csa.h:508-510) drops the last
    three arguments. -/
def createRun (p : PsiCoreRLE.Piece) : FRun := { start := p.first, stop := p.last, c := p.c, rank := p.idx, isRunStart := p.isFirst }

/-- `while (cum_next_c < last)` (sr_csa.h:101-107, sr_csa_psi.h:264-270) -/
def splitRunLoop (I : SrCSA) (last : Nat) : Nat → Nat → Nat → Option (List FRun)
  | 0, _, _ => none
  | f + 1, c, cumNext =>
    if cumNext < last then do
      let c := c + 1
      let cum := cumNext
      let cumNext ← I.alphabet.C[c + 1]?
      let w ← csub (min last cumNext) cum
      let l ← I.psi.computeForwardRuns c 1 (w + 1)
      let rest ← splitRunLoop I last f c cumNext
      return l.map createRun ++ rest
    else some []

/-- constructSplitRunInBWTRuns (sr_csa.h:79-110, sr_csa_psi.h:241-275): psi of the positions of a run, split in BWT runs -/
def splitRun (I : SrCSA) (run : FRun) : Option (List FRun) := do
  let c ← computeCForSAIndex I.alphabet.C run.start
  let cum ← I.alphabet.C[c]?
  let cumNext ← I.alphabet.C[c + 1]?
  let a ← csub run.start cum
  let w ← csub (min run.stop cumNext) cum
  let l ← I.psi.computeForwardRuns c (a + 1) (w + 1)
  let rest ← I.splitRunLoop run.stop (I.alphabet.C.length + 1) c cumNext
  return l.map createRun ++ rest

/-- update_run of SrCSASlim and SrCSAWithPsiRun (sr_csa.h:317-322, sr_csa_psi.h:184-189); the one of SrCSA (sr_csa.h:500-502) has no flag -/
def updateRun (run : FRun) : Option FRun := some { run with start := run.start + 1, isRunStart := false }

/-- the phi functor of constructPhiForRange (sr_csa.h:116-134, sr_csa_psi.h:195-211); the second component is not used -/
def phi (I : SrCSA) (v : Nat) : Option (Nat × Bool) :=
  phiForward I.successor
    (getSampleForPhi (fun i => (I.markToSample[i]?).map (fun k => (k, false))) (fun k => I.samples[k]?) validatorDefault)
    I.n v

/-- the functors handed to PhiForwardForRange (sr_csa.h:136-145, sr_csa_psi.h:300-310); the validity versions differ in `phi` -/
def rangePhi (I : SrCSA) (O : ForwOps) (phi : Nat → Option (Nat × Bool)) : RangePhi FRun where
  phi := phi
  getSample := O.getSampleRun
  splitRun := I.splitRun
  navigate := fun _ => none
  samplingSize := I.s
  seqSize := I.n
  updateRun := updateRun
  isRunEmpty := fun run => !decide (run.start < run.stop)

/-- PhiForwardForRange::operator() (phi.h:402-412) -/
def phiForRange (I : SrCSA) (O : ForwOps) (range : Range) (k : Nat) : Option (List Nat) :=
  if range.start < range.stop then do
    let runs ← O.splitRange range.start range.stop
    (I.rangePhi O I.phi).forwRange runs k
  else some []

/-- constructComputeToehold (sr_csa.h:150-154, sr_csa_psi.h:128-134). The navigation loop has no bound in the code; `n + 2` rounds are
    allowed here. -/
def saValueOfRun (I : SrCSA) (O : ForwOps) (d : FData) : Option Nat := saValueForward O.getSampleData O.psiData (I.n + 2) I.n d

/-- constructIndex (sr_csa.h:239-263, 449-476, sr_csa_psi.h:97-119), given the functor for the rest of the range -/
def functorsWith (I : SrCSA) (O : ForwOps) (phiForRange : Range → Nat → Option (List Nat)) : Functors Range RangeRunLF (StepData FData) where
  lf := I.lf
  toRange := PsiNav.toRange
  update := updateToehold PsiNav.lfTrivial O.create
  computeAll := computeAllValues phiForRange (computeToehold (I.saValueOfRun O) I.n) RCSA.shrink
  bwtSize := I.n
  initial := fun _ => { step := 0, run := { pos := 0, c := 0, rank := 0, isRunStart := false } }
  getSymbol := I.alphabet.char2comp
  fullRange := fun n => { start := 0, stop := n }
  isEmpty := fun r => !decide (r.start < r.stop)
  bounds := fun r => (r.start, r.stop)

/-- get_sample of SrCSASlim and SrCSAWithPsiRun (sr_csa.h:283-293, sr_csa_psi.h:143-159) -/
def getSampleIdx (I : SrCSA) (c rank : Nat) (isRunStart : Bool) : Option (Option Nat) :=
  if !isRunStart then some none
  else do
    let cc ← (if 0 < c then I.cumRuns[c - 1]? else some 0)
    let b ← I.samplesIdx[cc + rank]?
    if !b then return none
    else do
      let k ← bvRank I.samplesIdx (cc + rank)
      let v ← I.samples[k]?
      return some v

/-- psi over run data of SrCSASlim and SrCSAWithPsiRun (sr_csa.h:358-376, sr_csa_psi.h:277-298) with Psi::operator() (psi.h:744-747) -/
def psiData (I : SrCSA) (d : FData) : Option FData := do
  let c ← computeCForSAIndex I.alphabet.C d.pos
  let b ← I.alphabet.C[c]?
  let k ← csub d.pos b
  let (pos, start, _, rank) ← I.psi.selectReport c (k + 1)
  return { pos := pos, c := c, rank := rank, isRunStart := decide (pos = start) }

/-- the lambda of constructIndex of SrCSASlim and SrCSAWithPsiRun (sr_csa.h:244-249, sr_csa_psi.h:102-108) -/
def createIdx (range : Range) (c : Nat) (next : RangeRunLF) (step : Nat) : Option (StepData FData) :=
  some { step := step, run := { pos := next.start.rstart, c := c, rank := next.start.rank, isRunStart := decide (range.start ≠ next.start.rstart) } }

/-- SrCSASlim (sr_csa.h:168-377) and SrCSAWithPsiRun (sr_csa_psi.h:14-314) -/
def slimOps (I : SrCSA) : ForwOps where
  getSampleRun := fun r => I.getSampleIdx r.c r.rank r.isRunStart
  getSampleData := fun d => I.getSampleIdx d.c d.rank d.isRunStart
  splitRange := fun first last => do
    let l ← I.psi.splitInSortedRuns first last
    return l.map createRun
  psiData := I.psiData
  create := createIdx

/-- get_sample of SrCSA (sr_csa.h:481-485) -/
def getSamplePos (I : SrCSA) (pos : Nat) : Option (Option Nat) := do
  let b ← I.samplesIdx[pos]?
  if b then do
    let k ← bvRank I.samplesIdx pos
    let v ← I.samples[k]?
    return some v
  else return none

/-- the loop that cuts a range at the sampled positions (sr_csa.h:531-538): `k` positions from the `i`-th on are left -/
def cutLoop (I : SrCSA) (last : Nat) : Nat → Nat → Nat → Option (List FRun)
  | 0, _, runStart => some [{ start := runStart, stop := last, c := 0, rank := 0, isRunStart := false }]
  | k + 1, i, runStart => do
    let runEnd ← bvSelect I.samplesIdx i
    let rest ← cutLoop I last k (i + 1) runEnd
    return { start := runStart, stop := runEnd, c := 0, rank := 0, isRunStart := false } :: rest

/-- constructSplitRangeInBWTRuns of SrCSA (sr_csa.h:512-543). The `int` counter is modelled by a natural number. -/
def cutRange (I : SrCSA) (first last : Nat) : Option (List FRun) := do
  let a ← bvRank I.samplesIdx (first + 1)
  let b ← bvRank I.samplesIdx last
  I.cutLoop last (b - a) (a + 1) first

/-- psi over run data of SrCSA (sr_csa.h:548-562) -/
def psiPos (I : SrCSA) (d : FData) : Option FData := do
  let p ← psiApply I.psi.select I.alphabet.C d.pos
  return { d with pos := p }

/-- the lambda of constructIndex of SrCSA (sr_csa.h:459-462) -/
def createPos (_ : Range) (_ : Nat) (next : RangeRunLF) (step : Nat) : Option (StepData FData) :=
  some { step := step, run := { pos := next.start.rstart, c := 0, rank := 0, isRunStart := false } }

/-- SrCSA (sr_csa.h:386-563) -/
def posOps (I : SrCSA) : ForwOps where
  getSampleRun := fun r => I.getSamplePos r.start
  getSampleData := fun d => I.getSamplePos d.pos
  splitRange := I.cutRange
  psiData := I.psiPos
  create := createPos

/-! ## Construction -/

/-- computeSampleToMarkLinkForPhiForward (phi.h:237-253) -/
def sampleToMarkLink (lf psi : Nat → Option Nat) (rankMark : Nat → Nat) (n samplePos : Nat) : Option Nat := do
  let j ← lf samplePos
  let x ← csub (j + n) 1
  let i ← cmod x n
  let k ← psi i
  return rankMark k

/-- computeSampleToMarkLinksForPhiForward and the transform that follows (sr_csa.h:930-947, 969-1019): text positions of the marks linked
    to the kept samples -/
def submarksBWT (b : BaseItems) (p : PsiItems) (idx : List Nat) : Option (List Nat) := do
  let n ← b.alphabet.C[b.alphabet.sigma]?
  let links ← idx.mapM (fun i => do
    let pos ← b.runs.first[i]?
    sampleToMarkLink (basicLF b.bwtRle b.alphabet.C) (psiApply p.core.select b.alphabet.C) (lowerBound b.runs.last) n pos)
  links.mapM (fun k => b.runs.lastTextPos[k]?)

/-- what constructSrCSACommonsWithBWTRuns (sr_csa.h:1021-1050) and the psi items leave in the cache -/
structure Commons where
  base : BaseItems
  psi : PsiItems
  idx : List Nat
  samples : List Nat
  sub : List Nat
  sortedMarksIdx : List Nat

/-- constructRCSAWithBWTRuns (r_csa.h:350-378), constructSubsamplingBackwardSamplesForPhiForwardWithBWTRuns (sr_csa.h:876-918; the sample
    indices are read from the greatest text position to the smallest) and
    constructSubsamplingBackwardMarksForPhiForwardWithBWTRuns (sr_csa.h:923-966) -/
def commons (T sa : List Nat) (s : Nat) : Option Commons := do
  let b ← constructBase T sa
  let p ← constructPsiItems b
  let links ← linksPhiForwardBWT b p
  let idx ← SrIndex.subsampleIdx s b.runs.firstTextPos (sortIndices b.runs.firstTextPos).reverse links.2
  let samples ← idx.mapM (fun i => b.runs.firstTextPos[i]?)
  let sub ← submarksBWT b p idx
  return { base := b, psi := p, idx := idx, samples := samples, sub := sub, sortedMarksIdx := links.1 }

/-- construct(SrCSA) (sr_csa.h:796-828) with constructSubsamplingBackwardSamplesPosition (sr_csa.h:1151-1166), and load -/
def build (T sa : List Nat) (s : Nat) : Option SrCSA := do
  let k ← commons T sa s
  let marks ← bitVectorFromInts k.sub k.base.n false
  let pos ← k.idx.mapM (fun i => k.base.runs.first[i]?)
  let bv ← bitVectorFromInts pos k.base.n false
  let n ← k.base.alphabet.C[k.base.alphabet.sigma]?
  return { alphabet := k.base.alphabet, psi := k.psi.core, n := n, samples := k.samples, marks := marks, markToSample := sortIndices k.sub,
           samplesIdx := bv, cumRuns := [], s := s }

/-- constructSamplesSortedByAlphabet (sr_csa.h:1052-1087): indices of the runs symbol by symbol, and cumulative number of runs -/
def sortedByAlphabet (P : PsiCoreRLE) (first : List Nat) : List Nat → Nat → Option (List Nat × List Nat)
  | [], _ => some ([], [])
  | c :: cs, count => do
    let runs ← P.traverse c
    let (l, cum) ← sortedByAlphabet P first cs (count + runs.length)
    return (runs.map (fun q => lowerBound first q.1) ++ l, (count + runs.length) :: cum)

/-- the loop of constructSubsamplingBackwardSamplesSortedByAlphabet (sr_csa.h:1119-1130): `bv` is subsamples_idx_bv, `i` and `cnt` the
    counters, `toSorted` subsamples_idx_to_sorted; results subsamples_sorted, subsamples_idx_sorted, subsamples_idx_to_sorted -/
def slimLoop (bv : List Bool) (subs : List Nat) : Nat → Nat → List Nat → List Nat → Option (List Nat × List Nat × List Nat)
  | _, _, toSorted, [] => some ([], [], toSorted)
  | i, cnt, toSorted, idx :: rest => do
    let b ← bv[idx]?
    if b then
      let rnk ← bvRank bv idx
      let v ← subs[rnk]?
      assertC (decide (rnk < toSorted.length))
      let (l1, l2, t) ← slimLoop bv subs (i + 1) (cnt + 1) (toSorted.set rnk cnt) rest
      return (v :: l1, i :: l2, t)
    else slimLoop bv subs (i + 1) cnt toSorted rest

/-- construct(SrCSASlim) (sr_csa.h:753-792) with constructSubsamplingBackwardSamplesSortedByAlphabet (sr_csa.h:1089-1149), and load -/
def buildSlim (T sa : List Nat) (s : Nat) : Option SrCSA := do
  let k ← commons T sa s
  let marks ← bitVectorFromInts k.sub k.base.n false
  let (sorted, cum) ← sortedByAlphabet k.psi.core k.base.runs.first (List.range k.psi.core.parts.length) 0
  let idxBv ← bitVectorFromInts k.idx sorted.length false
  let (samples, idxSorted, toSorted) ← slimLoop idxBv k.samples 0 0 (List.replicate k.idx.length 0) sorted
  let links ← (sortIndices k.sub).mapM (fun i => toSorted[i]?)
  let bv ← bitVectorFromInts idxSorted k.base.runs.first.length false
  let n ← k.base.alphabet.C[k.base.alphabet.sigma]?
  return { alphabet := k.base.alphabet, psi := k.psi.core, n := n, samples := samples, marks := marks, markToSample := links,
           samplesIdx := bv, cumRuns := cum, s := s }

/-- computeSampleToMarkLinksForPhiForwardWithPsiRuns and computeSubmarksForPhiForwardWithPsiRuns (sr_csa_psi.h:591-634) -/
def submarksPsi (tails : List Nat) (r : Nat) (idx : List Nat) : Option (List Nat) :=
  idx.mapM (fun i => do
    let x ← csub (i + r) 1
    let k ← cmod x r
    tails[k]?)

/-- the loop of constructCumulativeCountsWithPsiRuns (sr_csa_psi.h:712-729) -/
def cumulative (P : PsiCoreRLE) : List Nat → Nat → Option (List Nat)
  | [], _ => some []
  | c :: cs, count => do
    let k ← P.countRuns c
    let cum ← cumulative P cs (count + k)
    return (count + k) :: cum

/-- what the construction of SrCSAWithPsiRun leaves in the cache for the validity information -/
structure PsiCommons where
  csa : SrCSA
  tails : List Nat
  sub : List Nat

/-- constructItems(SrCSAWithPsiRun) (sr_csa_psi.h:473-531, 533-567, 591-729) and load -/
def commonsPsi (T sa : List Nat) (s : Nat) : Option PsiCommons := do
  let b ← constructBase T sa
  let p ← constructPsiItems b
  let heads ← constructPsiRuns b b.runs.first b.runs.firstTextPos
  let tails ← constructPsiRuns b b.runs.last b.runs.lastTextPos
  let links ← linksPhiForwardPsi tails
  let idx ← SrIndex.subsampleIdx s heads (sortIndices heads).reverse links.2
  let samples ← idx.mapM (fun i => heads[i]?)
  let sub ← submarksPsi tails heads.length idx
  let marks ← bitVectorFromInts sub b.n false
  let bv ← bitVectorFromInts idx heads.length false
  let cum ← cumulative p.core (List.range p.core.parts.length) 0
  let n ← b.alphabet.C[b.alphabet.sigma]?
  return { csa := { alphabet := b.alphabet, psi := p.core, n := n, samples := samples, marks := marks, markToSample := sortIndices sub,
                    samplesIdx := bv, cumRuns := cum, s := s }, tails := tails, sub := sub }

def buildPsi (T sa : List Nat) (s : Nat) : Option SrCSA := do
  let k ← commonsPsi T sa s
  return k.csa

/-! ## Queries -/

/-- `SrCSA::Count` and `Locate` -/
def count (I : SrCSA) (P : List Nat) : Option (Nat × Nat) := (I.functorsWith I.posOps (I.phiForRange I.posOps)).count P
def locate (I : SrCSA) (P : List Nat) : Option (List Nat) := (I.functorsWith I.posOps (I.phiForRange I.posOps)).locate P

/-- `SrCSASlim::Count` and `Locate`, `SrCSAWithPsiRun::Count` and `Locate` -/
def countSlim (I : SrCSA) (P : List Nat) : Option (Nat × Nat) := (I.functorsWith I.slimOps (I.phiForRange I.slimOps)).count P
def locateSlim (I : SrCSA) (P : List Nat) : Option (List Nat) := (I.functorsWith I.slimOps (I.phiForRange I.slimOps)).locate P

end SrCSA

/-- items of SrCSAValidMark / SrCSAValidArea over any of the three classes (sr_csa.h:566-744), and of SRCSAValidMark / SRCSAValidArea
    (sr_csa_psi.h:316-460) -/
structure SrCSAValid where
  csa : SrCSA
  validMarks : List Bool
  validAreas : List Nat
deriving Repr, DecidableEq

namespace SrCSAValid

/-- phi of the ValidMark classes (sr_csa.h:637-650, sr_csa_psi.h:372-390) -/
def phiMark (I : SrCSAValid) (v : Nat) : Option (Nat × Bool) :=
  phiForward I.csa.successor
    (getSampleForPhi (fun i => do
        let k ← I.csa.markToSample[i]?
        let b ← I.validMarks[i]?
        return (k, b)) (fun k => I.csa.samples[k]?) validatorDefault)
    I.csa.n v

/-- phi of the ValidArea classes (sr_csa.h:720-743, sr_csa_psi.h:439-459) -/
def phiArea (I : SrCSAValid) (v : Nat) : Option (Nat × Bool) :=
  phiForward I.csa.successor
    (getSampleForPhi (fun i => do
        let k ← I.csa.markToSample[i]?
        let b ← I.validMarks[i]?
        return (k, b)) (fun k => I.csa.samples[k]?)
      (validatorArea (SrIndexValid.rank0 I.validMarks) (fun k => I.validAreas[k]?)))
    I.csa.n v

/-- PhiForwardForRangeWithValidity::operator() (phi.h:686-697) -/
def phiForRange (I : SrCSAValid) (O : ForwOps) (phi : Nat → Option (Nat × Bool)) (range : Range) (k : Nat) : Option (List Nat) :=
  if range.start < range.stop then
    (I.csa.rangePhi O phi).forwRangeV (O.splitRange range.start range.stop) k
  else some []

/-- the functors of a variant with validity information -/
def functorsWith (I : SrCSAValid) (O : ForwOps) (phi : Nat → Option (Nat × Bool)) : Functors Range RangeRunLF (StepData FData) :=
  I.csa.functorsWith O (I.phiForRange O phi)

/-- constructSubsamplingBackwardMarksValidity (sr_csa.h:1168-1219) and constructSubmarksValidity (sr_csa_psi.h:759-802): `marks` are all the
    marks and `sub` the kept ones; both are read from the greatest to the smallest, the results are stored in reverse. Then the bit
    vector of the valid marks (sr_csa.h:849-861, sr_csa_psi.h:742-756). -/
def validity (marks sub : List Nat) : Option (List Bool × List Nat) := do
  let l ← computeSubmarksValidity marks.reverse (sortBy (fun x => x) sub).reverse
  let q ← l.reverse.mapM (fun (q : Nat × Nat × Nat) => do
    let i ← csub sub.length q.1
    let i ← csub i 1
    let a ← csub q.2.1 q.2.2
    return (i, a))
  let bv ← bitVectorFromInts (q.map (·.1)) sub.length true
  return (bv, q.map (·.2))

/-- construct(SrCSAValidMark) over SrCSA, and construct(SrCSAValidArea) (sr_csa.h:832-874) -/
def build (T sa : List Nat) (s : Nat) : Option SrCSAValid := do
  let I ← SrCSA.build T sa s
  let k ← SrCSA.commons T sa s
  let marks ← k.sortedMarksIdx.mapM (fun i => k.base.runs.lastTextPos[i]?)
  let (bv, areas) ← validity marks k.sub
  return { csa := I, validMarks := bv, validAreas := areas }

/-- construct(SrCSAValidMark) over SrCSASlim, and construct(SrCSAValidArea) (sr_csa.h:832-874) -/
def buildSlim (T sa : List Nat) (s : Nat) : Option SrCSAValid := do
  let I ← SrCSA.buildSlim T sa s
  let k ← SrCSA.commons T sa s
  let marks ← k.sortedMarksIdx.mapM (fun i => k.base.runs.lastTextPos[i]?)
  let (bv, areas) ← validity marks k.sub
  return { csa := I, validMarks := bv, validAreas := areas }

/-- constructItems(SRCSAValidMark) and constructItems(SRCSAValidArea) (sr_csa_psi.h:733-757, 804-830) -/
def buildPsi (T sa : List Nat) (s : Nat) : Option SrCSAValid := do
  let k ← SrCSA.commonsPsi T sa s
  let (bv, areas) ← validity (sortBy (fun x => x) k.tails) k.sub
  return { csa := k.csa, validMarks := bv, validAreas := areas }

def countMark (I : SrCSAValid) (P : List Nat) : Option (Nat × Nat) := (I.functorsWith I.csa.posOps I.phiMark).count P
def locateMark (I : SrCSAValid) (P : List Nat) : Option (List Nat) := (I.functorsWith I.csa.posOps I.phiMark).locate P
def countArea (I : SrCSAValid) (P : List Nat) : Option (Nat × Nat) := (I.functorsWith I.csa.posOps I.phiArea).count P
def locateArea (I : SrCSAValid) (P : List Nat) : Option (List Nat) := (I.functorsWith I.csa.posOps I.phiArea).locate P
def countMarkSlim (I : SrCSAValid) (P : List Nat) : Option (Nat × Nat) := (I.functorsWith I.csa.slimOps I.phiMark).count P
def locateMarkSlim (I : SrCSAValid) (P : List Nat) : Option (List Nat) := (I.functorsWith I.csa.slimOps I.phiMark).locate P
def countAreaSlim (I : SrCSAValid) (P : List Nat) : Option (Nat × Nat) := (I.functorsWith I.csa.slimOps I.phiArea).count P
def locateAreaSlim (I : SrCSAValid) (P : List Nat) : Option (List Nat) := (I.functorsWith I.csa.slimOps I.phiArea).locate P

end SrCSAValid
end Sri

import Verif.Model.RIndex
import Verif.Model.Sampling
import Verif.Model.PhiRange
/-! # sr_index.h: SrIndex, SrIndexValidMark, SrIndexValidArea -/
namespace Sri
set_option autoImplicit false

/-- RunDataExt (sr_index.h:109-116) -/
structure RunDataExt where
  c : Nat
  lastRunRnk : Nat
  isRunEnd : Bool
  nextPos : Nat
deriving Repr, DecidableEq

/-- Run (sr_index.h:171-181) -/
structure PhiRun where
  start : Nat
  stop : Nat
  c : Nat
  rnk : Nat
  isRunEnd : Bool
deriving Repr, DecidableEq

/-- ComputeSAValue::operator() (tools.h:325-338), the loop: samples are looked for along the navigation; result sample and number
    of jumps. The loop has no bound in the code: running out of `fuel` stands for not terminating. -/
def findSample {β : Type} (getSample : β → Option (Option Nat)) (navigate : β → Option β) : Nat → β → Option (Nat × Nat)
  | 0, _ => none
  | fuel + 1, d => do
    let s ← getSample d
    match s with
    | some x => return (x, 0)
    | none => do
      let d ← navigate d
      let (x, j) ← findSample getSample navigate fuel d
      return (x, j + 1)

/-- buildComputeSAValueBackward (tools.h:325-338, 348-351) -/
def saValueBackward {β : Type} (getSample : β → Option (Option Nat)) (navigate : β → Option β) (fuel n : Nat) (d : β) : Option Nat := do
  let (x, j) ← findSample getSample navigate fuel d
  cmod (x + 1 + n + j) n

/-- the items SrIndex loads (sr_index.h:22-86): those of RIndex under other keys, the bit vector of sampled runs, the rate `s` -/
structure SrIndex where
  base : RIndex
  samplesIdx : List Bool
  s : Nat
deriving Repr, DecidableEq

namespace SrIndex

/-- constructCreateDataBackwardSearchStep (sr_index.h:120-125). `next_end.value - 1` wraps when the end is 0; that happens only for an
    empty next range, whose data are never read, so truncated subtraction is used. -/
def createData (_ : Range) (c : Nat) (next : RangeLF) (step : Nat) : Option (StepData RunDataExt) :=
  some { step := step, run := { c := c, lastRunRnk := next.stop.rank, isRunEnd := true, nextPos := next.stop.value - 1 } }

/-- constructGetSample (sr_index.h:127-137) -/
def getSample (I : SrIndex) (run : Nat) : Option (Option Nat) := do
  let b ← I.samplesIdx[run]?
  if b then do
    let k ← bvRank I.samplesIdx run
    let v ← I.base.samples[k]?
    return some v
  else return none

/-- get_sample_run_data (sr_index.h:143-145) -/
def getSampleData (I : SrIndex) (d : RunDataExt) : Option (Option Nat) :=
  if d.isRunEnd then I.getSample d.lastRunRnk else some none

/-- lf_run_data (sr_index.h:148-160) -/
def lfData (I : SrIndex) (d : RunDataExt) : Option RunDataExt := do
  let (rnk, c, runRnk, _, stop, _) ← I.base.bwtRle.rankAt d.nextPos
  let last ← csub stop 1
  let smaller ← I.base.alphabet.C[c]?
  return { c := c, lastRunRnk := runRnk, isRunEnd := decide (d.nextPos = last), nextPos := smaller + rnk }

/-- compute_sa_value_for_run_data (sr_index.h:162-166) -/
def saValueOfRun (I : SrIndex) (d : RunDataExt) : Option Nat := do
  let run ← I.base.bwtRle.selectOnRuns d.lastRunRnk d.c
  saValueBackward I.getSampleData I.lfData (I.base.n + 1) I.base.n { d with lastRunRnk := run }

/-- constructComputeToehold (sr_index.h:139-169) -/
def toehold (I : SrIndex) (d : StepData RunDataExt) : Option Nat :=
  computeToehold I.saValueOfRun I.base.bwtRle.size d

/-- `runs.back().end = last` (sr_index.h:192) -/
def setBackStop (last : Nat) : List PhiRun → List PhiRun
  | [] => []
  | [r] => [{ r with stop := last }]
  | r :: r' :: rest => r :: setBackStop last (r' :: rest)

/-- constructSplitInBWTRuns (sr_index.h:183-195); `front()`/`back()` of an empty vector are undefined -/
def split (I : SrIndex) (first last : Nat) : Option (List PhiRun) := do
  let l ← I.base.bwtRle.splitInRuns first last
  let runs := l.map (fun r => ({ start := r.start, stop := r.stop, c := r.c, rnk := r.rnk, isRunEnd := decide (r.stop ≤ last) } : PhiRun))
  match runs with
  | [] => none
  | f :: rest => return setBackStop last ({ f with start := first } :: rest)

/-- constructLFForPhi (sr_index.h:197-217) with lf (lf.h:25-44) -/
def lfForPhi (I : SrIndex) (run : PhiRun) : Option PhiRun := do
  let a ← I.base.bwtRle.rank run.start run.c
  let b ← I.base.bwtRle.rank run.stop run.c
  let smaller ← I.base.alphabet.C[run.c]?
  return { start := a + smaller, stop := b + smaller, c := 0, rnk := 0, isRunEnd := false }

/-- get_sample_run (sr_index.h:223-224, 322-323) -/
def getSampleRun (I : SrIndex) (run : PhiRun) : Option (Option Nat) :=
  if run.isRunEnd then I.getSample run.rnk else some none

/-- update_run (sr_index.h:230-233, 329-332) -/
def updateRun (run : PhiRun) : Option PhiRun := do
  let e ← csub run.stop 1
  return { run with stop := e, isRunEnd := false }

/-- the functors handed to PhiBackwardForRange (sr_index.h:219-245); the validity versions (sr_index.h:319-345) differ in `phi` -/
def rangePhi (I : SrIndex) (phi : Nat → Option (Nat × Bool)) : RangePhi PhiRun where
  phi := phi
  getSample := I.getSampleRun
  splitRun := fun run => I.split run.start run.stop
  navigate := I.lfForPhi
  samplingSize := I.s
  seqSize := I.base.n
  updateRun := updateRun
  isRunEmpty := fun run => !decide (run.start < run.stop)

/-- constructPhiForRange (sr_index.h:219-245) with PhiBackwardForRange::operator() (phi.h:283-289) -/
def phiForRange (I : SrIndex) (range : Range) (k : Nat) : Option (List Nat) :=
  if range.start < range.stop then do
    let runs ← I.split range.start range.stop
    (I.rangePhi I.base.phi).backRange runs k
  else some []

/-- constructIndex (sr_index.h:93-104), given the functor for the rest of the range -/
def functorsWith (I : SrIndex) (phiForRange : Range → Nat → Option (List Nat)) : Functors Range RangeLF (StepData RunDataExt) where
  lf := I.base.lf
  toRange := RIndex.toRange
  update := updateToehold RIndex.lfTrivial createData
  computeAll := computeAllValues phiForRange I.toehold RIndex.shrink
  bwtSize := I.base.n
  initial := fun _ => { step := 0, run := { c := 0, lastRunRnk := 0, isRunEnd := false, nextPos := 0 } }
  getSymbol := I.base.alphabet.char2comp
  fullRange := fun n => { start := 0, stop := n }
  isEmpty := fun r => !decide (r.start < r.stop)
  bounds := fun r => (r.start, r.stop)

def functors (I : SrIndex) : Functors Range RangeLF (StepData RunDataExt) := I.functorsWith I.phiForRange

/-- constructSubsamplingForwardSamplesForPhiBackward (sr_index.h:573-631): kept sample indices, sorted by BWT position -/
def subsampleIdx (s : Nat) (samples sortedIdx markToSample : List Nat) : Option (List Nat) := do
  let a ← markToSample[0]?
  let l ← csub markToSample.length 1
  let b ← markToSample[l]?
  computeSortedSampling s sortedIdx samples [a, b]

/-- text positions of the marks linked to the kept samples: computeSampleToMarkLinksForPhiBackward (sr_index.h:633-653) and
    the first half of constructSubsamplingForwardMarksForPhiBackward (sr_index.h:655-678) -/
def submarks (marks : List Nat) (idx : List Nat) : Option (List Nat) :=
  idx.mapM (fun i => do
    let k ← cmod (i + 1) marks.length
    marks[k]?)

/-- constructSRI (sr_index.h:486-542) and load, over the text `T` with suffix array `sa` -/
def build (T sa : List Nat) (s : Nat) : Option SrIndex := do
  let b ← constructBase T sa
  let links := linksPhiBackward b.runs.firstTextPos
  let sortedIdx := sortIndices b.runs.lastTextPos
  let idx ← subsampleIdx s b.runs.lastTextPos sortedIdx links.2
  let samples ← idx.mapM (fun i => b.runs.lastTextPos[i]?)
  let samplesIdx ← bitVectorFromInts idx b.runs.last.length false
  let sub ← submarks b.runs.firstTextPos idx
  let marks ← bitVectorFromInts sub b.n false
  let n ← b.alphabet.C[b.alphabet.sigma]?
  return { base := { alphabet := b.alphabet, bwtRle := b.bwtRle, samples := samples, marks := marks,
                     markToSample := sortIndices sub, n := n },
           samplesIdx := samplesIdx, s := s }

/-- `SrIndex::Count` -/
def count (I : SrIndex) (P : List Nat) : Option (Nat × Nat) := I.functors.count P

/-- `SrIndex::Locate` -/
def locate (I : SrIndex) (P : List Nat) : Option (List Nat) := I.functors.locate P

end SrIndex

/-- items of SrIndexValidMark / SrIndexValidArea (sr_index.h:251-440) -/
structure SrIndexValid where
  sr : SrIndex
  validMarks : List Bool
  validAreas : List Nat
deriving Repr, DecidableEq

namespace SrIndexValid

/-- constructPhi of SrIndexValidMark: mark-to-sample link paired with the validity bit (sr_index.h:300-315) -/
def phiMark (I : SrIndexValid) (v : Nat) : Option (Nat × Bool) :=
  phiBackward I.sr.base.predecessor
    (getSampleForPhi (fun i => do
        let k ← I.sr.base.markToSample[i]?
        let b ← I.validMarks[i]?
        return (k, b)) (fun k => I.sr.base.samples[k]?) validatorDefault)
    I.sr.base.n v

/-- `rank_0_type` of the validity bit vector -/
def rank0 (bv : List Bool) (i : Nat) : Option Nat :=
  if i ≤ bv.length then some ((bv.take i).count false) else none

/-- constructPhi of SrIndexValidArea (sr_index.h:411-440) -/
def phiArea (I : SrIndexValid) (v : Nat) : Option (Nat × Bool) :=
  phiBackward I.sr.base.predecessor
    (getSampleForPhi (fun i => do
        let k ← I.sr.base.markToSample[i]?
        let b ← I.validMarks[i]?
        return (k, b)) (fun k => I.sr.base.samples[k]?)
      (validatorArea (rank0 I.validMarks) (fun k => I.validAreas[k]?)))
    I.sr.base.n v

/-- constructPhiForRange (sr_index.h:319-345) with PhiBackwardForRangeWithValidity::operator() (phi.h:590-599) -/
def phiForRange (I : SrIndexValid) (phi : Nat → Option (Nat × Bool)) (range : Range) (k : Nat) : Option (List Nat) :=
  if range.start < range.stop then
    (I.sr.rangePhi phi).backRangeV (I.sr.split range.start range.stop) k
  else some []

def functorsMark (I : SrIndexValid) : Functors Range RangeLF (StepData RunDataExt) :=
  I.sr.functorsWith (I.phiForRange I.phiMark)

def functorsArea (I : SrIndexValid) : Functors Range RangeLF (StepData RunDataExt) :=
  I.sr.functorsWith (I.phiForRange I.phiArea)

/-- constructSRIValidMark (sr_index.h:546-571) with constructSubsamplingForwardMarksValidity (sr_index.h:687-739), and load -/
def build (T sa : List Nat) (s : Nat) : Option SrIndexValid := do
  let sr ← SrIndex.build T sa s
  let b ← constructBase T sa
  let links := linksPhiBackward b.runs.firstTextPos
  let sortedIdx := sortIndices b.runs.lastTextPos
  let idx ← SrIndex.subsampleIdx s b.runs.lastTextPos sortedIdx links.2
  let sub ← SrIndex.submarks b.runs.firstTextPos idx
  let marks ← links.1.mapM (fun i => b.runs.firstTextPos[i]?)
  let validity ← computeSubmarksValidity marks (sortBy (fun x => x) sub)
  let areas ← validity.mapM (fun q => csub q.2.2 q.2.1)
  let validMarks ← bitVectorFromInts (validity.map (·.1)) sub.length true
  return { sr := sr, validMarks := validMarks, validAreas := areas }

def countMark (I : SrIndexValid) (P : List Nat) : Option (Nat × Nat) := I.functorsMark.count P
def locateMark (I : SrIndexValid) (P : List Nat) : Option (List Nat) := I.functorsMark.locate P
def countArea (I : SrIndexValid) (P : List Nat) : Option (Nat × Nat) := I.functorsArea.count P
def locateArea (I : SrIndexValid) (P : List Nat) : Option (List Nat) := I.functorsArea.locate P

end SrIndexValid
end Sri

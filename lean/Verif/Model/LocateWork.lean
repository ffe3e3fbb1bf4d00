import Verif.Model.CountWork
/-! # The operations of a Locate query

The functions a Locate query runs, written once more so that they count the operations on the succinct structures of sdsl, as Model/CountWork
does for Count, instead of the calls of the functors that Model/Work counts: each rank or select on a bit vector, each rank, select or
inverse select on the wavelet tree of the run heads, each code decoded, and each element read of an enc_vector, of a vector of sampled ranks, of
samples, of links, of validity marks and areas, of `C` in the search of a symbol and of a bit vector counts 1. Arithmetic, comparisons of
numbers at hand, sorting the reported runs and the other reads of `C`, of the cumulative runs and of the members of an index are free. Every function here computes what the function it
repeats computes (Proofs/LocateWork). -/
namespace Sri
set_option autoImplicit false

/-! ## Navigation with functors that count -/

/-- the functors handed to the navigation (phi.h:258-289, 380-414, 560-599, 670-697), see `RangePhi`, with what each of them costs -/
structure RangePhiC (R : Type) where
  plain : RangePhi R
  phi : Nat → Cost (Nat × Bool)
  getSample : R → Cost (Option Nat)
  splitRun : R → Cost (List R)
  navigate : R → Cost R

namespace RangePhiC
variable {R : Type}

/-- phi.h:318-323, 421-425, see `RangePhi.phiWhile` -/
def phiWhile (F : RangePhiC R) : Nat → R → Nat → Cost (List Nat × Nat)
  | 0, _, _ => Cost.free none
  | fuel + 1, run, prev => do
    let (v, _) ← F.phi prev
    let run ← Cost.free (F.plain.updateRun run)
    if F.plain.isRunEmpty run then return ([v], v)
    else do
      let (l, e) ← phiWhile F fuel run v
      return (v :: l, e)

/-- PhiBackwardForRange::computeForRuns (phi.h:291-311), see `RangePhi.backRuns` -/
def backRuns (F : RangePhiC R) (level : Nat) (next : R → Nat → Cost (List Nat × Nat)) : List R → Nat → Cost (List Nat × Nat)
  | [], prev => Cost.ret ([], prev)
  | run :: rest, prev => do
    let sample ← F.getSample run
    let (rep, prev, run) ← (match sample with
      | some x => do
        let v ← Cost.free (cmod (x + 1 + level) F.plain.seqSize)
        let run ← Cost.free (F.plain.updateRun run)
        return ([v], v, run)
      | none => return ([], prev, run))
    let (rep2, prev) ← (if F.plain.isRunEmpty run then return ([], prev)
      else do
        let nr ← F.navigate run
        next nr prev)
    let (rep3, prev) ← backRuns F level next rest prev
    return (rep ++ rep2 ++ rep3, prev)

/-- PhiBackwardForRange::compute (phi.h:313-330), see `RangePhi.backCompute` -/
def backCompute (F : RangePhiC R) : Nat → Nat → R → Nat → Cost (List Nat × Nat)
  | 0, _, _, _ => Cost.free none
  | depth + 1, level, run, prev =>
    if F.plain.samplingSize ≤ level then F.phiWhile F.plain.seqSize run prev
    else do
      let runs ← F.splitRun run
      F.backRuns level (backCompute F depth (level + 1)) runs.reverse prev

/-- PhiBackwardForRange::operator() (phi.h:283-289), see `RangePhi.backRange` -/
def backRange (F : RangePhiC R) (runs : List R) (prev : Nat) : Cost (List Nat) := do
  let (l, _) ← F.backRuns 0 (F.backCompute (F.plain.samplingSize + 1) 1) runs.reverse prev
  return l

/-- phi.h:611-617, 718-723, see `RangePhi.reportValid` -/
def reportValid (F : RangePhiC R) : Nat → R → Nat → Bool → Cost (List Nat × R × Nat × Bool)
  | fuel, run, value, valid =>
    if F.plain.isRunEmpty run || !valid then Cost.ret ([], run, value, valid)
    else match fuel with
      | 0 => Cost.free none
      | fuel + 1 => do
        let run ← Cost.free (F.plain.updateRun run)
        let (v, ok) ← F.phi value
        let (l, e) ← reportValid F fuel run v ok
        return (value :: l, e)

/-- phi.h:608-630, 715-731, see `RangePhi.runValid` -/
def runValid (F : RangePhiC R) (toValue : Nat → Option Nat) : Nat → R → Nat → Bool → Cost (List Nat × R × Nat × Bool)
  | 0, _, _, _ => Cost.free none
  | fuel + 1, run, value, valid => do
    let (l, run, value, valid) ← F.reportValid F.plain.seqSize run value valid
    if F.plain.isRunEmpty run then return (l, run, value, valid)
    else do
      let sample ← F.getSample run
      match sample with
      | some x => do
        let v ← Cost.free (toValue x)
        let (l2, e) ← runValid F toValue fuel run v true
        return (l ++ l2, e)
      | none =>
        if valid then do
          let (l2, e) ← runValid F toValue fuel run value valid
          return (l ++ l2, e)
        else return (l, run, value, valid)

/-- phi.h:645-651, 702-707, see `RangePhi.phiWhileV` -/
def phiWhileV (F : RangePhiC R) : Nat → R → Nat → Cost (List Nat × Nat × Bool)
  | 0, _, _ => Cost.free none
  | fuel + 1, run, value => do
    let run ← Cost.free (F.plain.updateRun run)
    let (v, ok) ← F.phi value
    if F.plain.isRunEmpty run then return ([value], v, ok)
    else do
      let (l, e) ← phiWhileV F fuel run v
      return (value :: l, e)

/-- PhiBackwardForRangeWithValidity::computeForRuns (phi.h:601-640), see `RangePhi.backRunsV` -/
def backRunsV (F : RangePhiC R) (level : Nat) (next : R → Nat → Bool → Cost (List Nat × Nat × Bool)) :
    List R → Nat → Bool → Cost (List Nat × Nat × Bool)
  | [], value, valid => Cost.ret ([], value, valid)
  | run :: rest, value, valid => do
    let (rep, run, value, valid) ← F.runValid (fun x => cmod (x + 1 + level) F.plain.seqSize) (F.plain.seqSize + 2) run value valid
    let (rep2, value, valid) ← (if F.plain.isRunEmpty run then return ([], value, valid)
      else do
        let nr ← F.navigate run
        next nr value valid)
    let (rep3, e) ← backRunsV F level next rest value valid
    return (rep ++ rep2 ++ rep3, e)

/-- PhiBackwardForRangeWithValidity::compute (phi.h:642-660), see `RangePhi.backComputeV` -/
def backComputeV (F : RangePhiC R) : Nat → Nat → R → Nat → Bool → Cost (List Nat × Nat × Bool)
  | 0, _, _, _, _ => Cost.free none
  | depth + 1, level, run, value, valid =>
    if F.plain.samplingSize ≤ level then F.phiWhileV F.plain.seqSize run value
    else do
      let runs ← F.splitRun run
      F.backRunsV level (backComputeV F depth (level + 1)) runs.reverse value valid

/-- PhiBackwardForRangeWithValidity::operator() (phi.h:590-599), see `RangePhi.backRangeV` -/
def backRangeV (F : RangePhiC R) (runs : Cost (List R)) (prev : Nat) : Cost (List Nat) := do
  let (value, valid) ← F.phi prev
  let runs ← runs
  let (l, _) ← F.backRunsV 0 (F.backComputeV (F.plain.samplingSize + 1) 1) runs.reverse value valid
  return l

/-- PhiForwardForRange::compute (phi.h:416-445), see `RangePhi.forwCompute` -/
def forwCompute (F : RangePhiC R) : Nat → Nat → R → Nat → Cost (List Nat × Nat)
  | 0, _, _, _ => Cost.free none
  | depth + 1, level, run, prev =>
    if F.plain.samplingSize < level then F.phiWhile F.plain.seqSize run prev
    else do
      let sample ← F.getSample run
      let (rep, prev, run) ← (match sample with
        | some x => do
          let y ← Cost.free (csub (x + 1 + F.plain.seqSize) level)
          let v ← Cost.free (cmod (y + 1) F.plain.seqSize)
          let run ← Cost.free (F.plain.updateRun run)
          return ([v], v, run)
        | none => return ([], prev, run))
      if F.plain.isRunEmpty run then return (rep, prev)
      else do
        let runs ← F.splitRun run
        let (rep2, prev) ← runs.foldlM (fun (acc : List Nat × Nat) r => do
          let (l, p) ← forwCompute F depth (level + 1) r acc.2
          return (acc.1 ++ l, p)) ([], prev)
        return (rep ++ rep2, prev)

/-- PhiForwardForRange::operator() (phi.h:405-414), see `RangePhi.forwRange` -/
def forwRange (F : RangePhiC R) (runs : List R) (prev : Nat) : Cost (List Nat) := do
  let (l, _) ← runs.foldlM (fun (acc : List Nat × Nat) r => do
    let (l, p) ← F.forwCompute (F.plain.samplingSize + 1) 1 r acc.2
    return (acc.1 ++ l, p)) ([], prev)
  return l

/-- PhiForwardForRangeWithValidity::compute (phi.h:699-740), see `RangePhi.forwComputeV` -/
def forwComputeV (F : RangePhiC R) : Nat → Nat → R → Nat → Bool → Cost (List Nat × Nat × Bool)
  | 0, _, _, _, _ => Cost.free none
  | depth + 1, level, run, value, valid =>
    if F.plain.samplingSize < level then F.phiWhileV F.plain.seqSize run value
    else do
      let (rep, run, value, valid) ← F.runValid
        (fun x => do
          let y ← csub (x + 1 + F.plain.seqSize) level
          cmod (y + 1) F.plain.seqSize) (F.plain.seqSize + 2) run value valid
      if F.plain.isRunEmpty run then return (rep, value, valid)
      else do
        let runs ← F.splitRun run
        let (rep2, value, valid) ← runs.foldlM (fun (acc : List Nat × Nat × Bool) r => do
          let (l, e) ← forwComputeV F depth (level + 1) r acc.2.1 acc.2.2
          return (acc.1 ++ l, e)) ([], value, valid)
        return (rep ++ rep2, value, valid)

/-- PhiForwardForRangeWithValidity::operator() (phi.h:689-697), see `RangePhi.forwRangeV` -/
def forwRangeV (F : RangePhiC R) (runs : Cost (List R)) (prev : Nat) : Cost (List Nat) := do
  let (value, valid) ← F.phi prev
  let runs ← runs
  let (l, _) ← runs.foldlM (fun (acc : List Nat × Nat × Bool) r => do
    let (l, e) ← F.forwComputeV (F.plain.samplingSize + 1) 1 r acc.2.1 acc.2.2
    return (acc.1 ++ l, e)) ([], value, valid)
  return l

end RangePhiC

/-- the loop of the original r-index (r_index.h:252-258, r_csa.h:219-226, 579-586), see `phiLoop` -/
def phiLoopC (phi : Nat → Cost (Nat × Bool)) : Nat → Nat → Cost (List Nat)
  | 0, _ => Cost.ret []
  | len + 1, k => do
    let (k, _) ← phi k
    let rest ← phiLoopC phi len k
    return k :: rest

/-- ComputeSAValue::operator() (tools.h:325-338), the loop; see `findSample` -/
def findSampleC {β : Type} (getSample : β → Cost (Option Nat)) (navigate : β → Cost β) : Nat → β → Cost (Nat × Nat)
  | 0, _ => Cost.free none
  | fuel + 1, d => do
    let s ← getSample d
    match s with
    | some x => return (x, 0)
    | none => do
      let d ← navigate d
      let (x, j) ← findSampleC getSample navigate fuel d
      return (x, j + 1)

/-- buildComputeSAValueBackward (tools.h:325-338, 348-351), see `saValueBackward` -/
def saValueBackwardC {β : Type} (getSample : β → Cost (Option Nat)) (navigate : β → Cost β) (fuel n : Nat) (d : β) : Cost Nat := do
  let (x, j) ← findSampleC getSample navigate fuel d
  Cost.free (cmod (x + 1 + n + j) n)

/-- buildComputeSAValueForward (tools.h:325-338, 353-356), see `saValueForward` -/
def saValueForwardC {β : Type} (getSample : β → Cost (Option Nat)) (navigate : β → Cost β) (fuel n : Nat) (d : β) : Cost Nat := do
  let (x, j) ← findSampleC getSample navigate fuel d
  let y ← Cost.free (csub (x + 1 + n) j)
  Cost.free (cmod y n)

namespace Functors
variable {ρ ν δ : Type}

/-- loop of Locate (index_base.h:240-248), see `locateLoop` -/
def locateLoopC (F : Functors ρ ν δ) (lf : ρ → Nat → Cost ν) : List Nat → ρ → δ → Cost (ρ × δ)
  | [], range, data => Cost.ret (range, data)
  | ch :: rest, range, data =>
    if F.isEmpty range then Cost.ret (range, data)
    else do
      let c := F.getSymbol ch
      let next ← lf range c
      let data ← Cost.free (F.update range next c rest.length data)
      locateLoopC F lf rest (F.toRange next) data

/-- Locate (index_base.h:223-254), see `locate` -/
def locateC (F : Functors ρ ν δ) (lf : ρ → Nat → Cost ν) (computeAll : ρ → δ → Cost (List Nat)) (P : List Nat) : Cost (List Nat) := do
  let (range, data) ← F.locateLoopC lf P.reverse (F.fullRange F.bwtSize) (F.initial (P.length - 1))
  if F.isEmpty range then return [] else computeAll range data

end Functors

/-! ## The functors over the run-length string -/

namespace RLEString

/-- rank (rle_string.hpp:760-775), see `rank` -/
def rankW (s : RLEString) (i c : Nat) : Cost Nat := do
  Cost.free (assertC (decide (i ≤ s.size)))
  let bv ← Cost.free (s.perSym[c]?)
  if bv.length = 0 then return 0
  else if i = s.size then return bv.length
  else
    let (run, _) ← s.rankSoftBothRunW i
    let symbolRunRank ← Cost.call (wtRank s.runHeads run.rnk c)
    let symbolRunStart ← afterSelectW bv symbolRunRank
    let runOffset ← Cost.free (if run.c = c then csub i run.start else some 0 : Option Nat)
    return symbolRunStart + runOffset

/-- `rank(t_i, report)` (rle_string.hpp:818-826), see `rankAt` -/
def rankAtW (s : RLEString) (i : Nat) : Cost (Nat × Nat × Nat × Nat × Nat × Nat) := do
  Cost.free (assertC (decide (i < s.size)))
  let (run, sym) ← s.rankSoftBothRunW i
  let off ← Cost.free (csub i run.start)
  return (sym.start + off, run.c, run.rnk, run.start, run.stop, sym.rnk)

/-- selectOnRuns (rle_string.hpp:832-836), see `selectOnRuns`. The rank of the assertion is counted. -/
def selectOnRunsW (s : RLEString) (runRnk c : Nat) : Cost Nat := do
  let bv ← Cost.free (s.perSym[c]?)
  let total ← Cost.call (bvRank bv bv.length)
  Cost.free (assertC (decide (1 ≤ runRnk ∧ runRnk ≤ total)))
  Cost.call (wtSelect s.runHeads runRnk c)

/-- the reporting loop of splitInRuns (rle_string.hpp:865-871), see `splitLoop` -/
def splitLoopW (s : RLEString) (last : Nat) : Nat → RunData → Cost (List RunData)
  | 0, _ => Cost.free none
  | fuel + 1, run =>
    if run.stop < last then do
      let (next, _) ← s.computeBothRunDataW (run.rnk + 1) run.stop
      let rest ← splitLoopW s last fuel next
      return run :: rest
    else Cost.ret [run]

/-- splitInRuns with report (rle_string.hpp:859-872), see `splitInRuns` -/
def splitInRunsW (s : RLEString) (first last : Nat) : Cost (List RunData) := do
  Cost.free (assertC (decide (first ≤ last ∧ last ≤ s.size)))
  let (run, _) ← s.rankSoftBothRunW first
  splitLoopW s last (s.r + 1) run

end RLEString

/-- one read of a vector of integers or bits -/
def readW {α : Type} (l : List α) (i : Nat) : Cost α := Cost.call (l[i]?)

/-- CircularPredecessor (sequence_ops.h:18-44), see `circularPredecessor`. The constructor, run when the index is loaded, counts the marks. -/
def circularPredecessorW (bv : List Bool) (size i : Nat) : Cost (Nat × Nat) := do
  let ones ← Cost.free (bvRank bv size)
  let r ← Cost.call (bvRank bv i)
  let x ← Cost.free (csub (r + ones) 1)
  let order ← Cost.free (cmod x ones)
  let value ← Cost.call (bvSelect bv (order + 1))
  return (order, value)

/-- CircularSoftSuccessor (sequence_ops.h:56-82), see `circularSoftSuccessor`. The constructor counts the marks. -/
def circularSoftSuccessorW (bv : List Bool) (size i : Nat) : Cost (Nat × Nat) := do
  let ones ← Cost.free (bvRank bv size)
  let r ← Cost.call (bvRank bv i)
  let order ← Cost.free (cmod r ones)
  let value ← Cost.call (bvSelect bv (order + 1))
  return (order, value)

/-- GetSampleForPhi::operator() (phi.h:37-46), see `getSampleForPhi` -/
def getSampleForPhiW (getIdx : Nat → Cost (Nat × Bool)) (getSample : Nat → Cost Nat) (valid : Nat → Nat → Bool → Cost Bool)
    (pos delta : Nat) : Cost (Nat × Bool) := do
  let (idx, trusted) ← getIdx pos
  let sample ← getSample idx
  let ok ← valid pos delta trusted
  return (sample, ok)

/-- the link of a mark, without validity information (r_index.h:226-239) -/
def linkW (markToSample : List Nat) (b : Bool) (i : Nat) : Cost (Nat × Bool) := do
  let k ← readW markToSample i
  return (k, b)

/-- the link of a mark with its validity bit (sr_index.h:300-312, sr_csa.h:637-650) -/
def linkValidW (markToSample : List Nat) (validMarks : List Bool) (i : Nat) : Cost (Nat × Bool) := do
  let k ← readW markToSample i
  let b ← readW validMarks i
  return (k, b)

/-- SampleValidatorDefault (tools.h:101-106), see `validatorDefault` -/
def validatorDefaultW (_pos _delta : Nat) (trusted : Bool) : Cost Bool := Cost.ret trusted

/-- SampleValidator (tools.h:108-130), see `validatorArea`, with the rank of the invalid marks and the areas -/
def validatorAreaW (validMarks : List Bool) (validAreas : List Nat) (pos delta : Nat) (trusted : Bool) : Cost Bool :=
  if trusted then Cost.ret true
  else do
    let idx ← Cost.call (SrIndexValid.rank0 validMarks pos)
    let a ← readW validAreas idx
    return !decide (a ≤ delta)

/-- PhiBackward::operator() (phi.h:98-112) with phi (phi.h:62-78), see `phiBackward` -/
def phiBackwardW (pred : Nat → Cost (Nat × Nat)) (getSample : Nat → Nat → Cost (Nat × Bool)) (n prev : Nat) : Cost (Nat × Bool) := do
  let last ← Cost.free (csub n 1)
  Cost.free (assertC (decide (prev ≠ last)))
  let (pos, related) ← pred prev
  let delta := if related < prev then prev - related else prev + 1
  let (sample, ok) ← getSample pos delta
  let value ← Cost.free (cmod (sample + delta) n)
  return (value, ok)

/-- PhiForward::operator() (phi.h:149-161) with phi (phi.h:62-78), see `phiForward` -/
def phiForwardW (succ : Nat → Cost (Nat × Nat)) (getSample : Nat → Nat → Cost (Nat × Bool)) (n prev : Nat) : Cost (Nat × Bool) := do
  let (pos, related) ← succ prev
  let delta ← Cost.free (csub related prev)
  let (sample, ok) ← getSample pos delta
  let x ← Cost.free (csub (sample + n) delta)
  let value ← Cost.free (cmod x n)
  return (value, ok)

/-- constructPhi (r_index.h:226-247), see `RIndex.phi` -/
def RIndex.phiW (I : RIndex) (v : Nat) : Cost (Nat × Bool) :=
  phiBackwardW (circularPredecessorW I.marks I.n)
    (getSampleForPhiW (linkW I.markToSample true) (readW I.samples) validatorDefaultW) I.n v

/-- get_sa_value_for_run_data (r_index.h:217-220), see `RIndex.saValueOfRun` -/
def RIndex.saValueOfRunC (I : RIndex) (d : RunData) : Cost Nat := do
  let run ← I.bwtRle.selectOnRunsW d.lastRunRnk d.c
  let s ← readW I.samples run
  return s + 1

/-- Locate of RIndex (r_index.h:103-114, 213-224, 249-270) -/
def RIndex.locateC (I : RIndex) (P : List Nat) : Cost (List Nat) :=
  I.functors.locateC I.lfW (computeAllValuesW (fun range k => phiLoopC I.phiW (range.stop - range.start) k)
    (computeToeholdW I.saValueOfRunC I.bwtRle.size) RIndex.shrink) P

namespace SrIndex

/-- constructGetSample (sr_index.h:127-137), see `getSample` -/
def getSampleW (I : SrIndex) (run : Nat) : Cost (Option Nat) := do
  let b ← readW I.samplesIdx run
  if b then do
    let k ← Cost.call (bvRank I.samplesIdx run)
    let v ← readW I.base.samples k
    return some v
  else return none

/-- get_sample_run_data (sr_index.h:143-145), see `getSampleData` -/
def getSampleDataW (I : SrIndex) (d : RunDataExt) : Cost (Option Nat) :=
  if d.isRunEnd then I.getSampleW d.lastRunRnk else Cost.ret none

/-- lf_run_data (sr_index.h:148-160), see `lfData` -/
def lfDataW (I : SrIndex) (d : RunDataExt) : Cost RunDataExt := do
  let (rnk, c, runRnk, _, stop, _) ← I.base.bwtRle.rankAtW d.nextPos
  let last ← Cost.free (csub stop 1)
  let smaller ← Cost.free (I.base.alphabet.C[c]?)
  return { c := c, lastRunRnk := runRnk, isRunEnd := decide (d.nextPos = last), nextPos := smaller + rnk }

/-- compute_sa_value_for_run_data (sr_index.h:162-166), see `saValueOfRun` -/
def saValueOfRunC (I : SrIndex) (d : RunDataExt) : Cost Nat := do
  let run ← I.base.bwtRle.selectOnRunsW d.lastRunRnk d.c
  saValueBackwardC I.getSampleDataW I.lfDataW (I.base.n + 1) I.base.n { d with lastRunRnk := run }

/-- constructSplitInBWTRuns (sr_index.h:183-195), see `split` -/
def splitW (I : SrIndex) (first last : Nat) : Cost (List PhiRun) := do
  let l ← I.base.bwtRle.splitInRunsW first last
  let runs := l.map (fun r => ({ start := r.start, stop := r.stop, c := r.c, rnk := r.rnk, isRunEnd := decide (r.stop ≤ last) } : PhiRun))
  match runs with
  | [] => Cost.free none
  | f :: rest => return setBackStop last ({ f with start := first } :: rest)

/-- constructLFForPhi (sr_index.h:197-217) with lf (lf.h:25-44), see `lfForPhi` -/
def lfForPhiW (I : SrIndex) (run : PhiRun) : Cost PhiRun := do
  let a ← I.base.bwtRle.rankW run.start run.c
  let b ← I.base.bwtRle.rankW run.stop run.c
  let smaller ← Cost.free (I.base.alphabet.C[run.c]?)
  return { start := a + smaller, stop := b + smaller, c := 0, rnk := 0, isRunEnd := false }

/-- get_sample_run (sr_index.h:223-224, 322-323), see `getSampleRun` -/
def getSampleRunW (I : SrIndex) (run : PhiRun) : Cost (Option Nat) :=
  if run.isRunEnd then I.getSampleW run.rnk else Cost.ret none

/-- the functors handed to PhiBackwardForRange (sr_index.h:219-245, 319-345), see `rangePhi` -/
def rangePhiC (I : SrIndex) (phi : Nat → Option (Nat × Bool)) (phiW : Nat → Cost (Nat × Bool)) : RangePhiC PhiRun where
  plain := I.rangePhi phi
  phi := phiW
  getSample := I.getSampleRunW
  splitRun := fun run => I.splitW run.start run.stop
  navigate := I.lfForPhiW

/-- PhiBackwardForRange::operator() (phi.h:283-289) with constructPhiForRange (sr_index.h:219-245), see `phiForRange` -/
def phiForRangeC (I : SrIndex) (range : Range) (k : Nat) : Cost (List Nat) :=
  if range.start < range.stop then do
    let runs ← I.splitW range.start range.stop
    (I.rangePhiC I.base.phi I.base.phiW).backRange runs k
  else Cost.ret []

/-- Locate of SrIndex and its validity classes (sr_index.h:93-104, 139-169), given the functor for the rest of the range -/
def locateC (I : SrIndex) (g : Range → Nat → Option (List Nat)) (w : Range → Nat → Cost (List Nat)) (P : List Nat) : Cost (List Nat) :=
  (I.functorsWith g).locateC I.base.lfW (computeAllValuesW w (computeToeholdW I.saValueOfRunC I.base.bwtRle.size) RIndex.shrink) P

end SrIndex

namespace SrIndexValid

/-- constructPhi of SrIndexValidMark (sr_index.h:300-315), see `phiMark` -/
def phiMarkW (I : SrIndexValid) (v : Nat) : Cost (Nat × Bool) :=
  phiBackwardW (circularPredecessorW I.sr.base.marks I.sr.base.n)
    (getSampleForPhiW (linkValidW I.sr.base.markToSample I.validMarks) (readW I.sr.base.samples) validatorDefaultW) I.sr.base.n v

/-- constructPhi of SrIndexValidArea (sr_index.h:411-440), see `phiArea` -/
def phiAreaW (I : SrIndexValid) (v : Nat) : Cost (Nat × Bool) :=
  phiBackwardW (circularPredecessorW I.sr.base.marks I.sr.base.n)
    (getSampleForPhiW (linkValidW I.sr.base.markToSample I.validMarks) (readW I.sr.base.samples)
      (validatorAreaW I.validMarks I.validAreas)) I.sr.base.n v

/-- PhiBackwardForRangeWithValidity::operator() (phi.h:590-599) with constructPhiForRange (sr_index.h:319-345), see `phiForRange` -/
def phiForRangeC (I : SrIndexValid) (phi : Nat → Option (Nat × Bool)) (phiW : Nat → Cost (Nat × Bool)) (range : Range) (k : Nat) :
    Cost (List Nat) :=
  if range.start < range.stop then
    (I.sr.rangePhiC phi phiW).backRangeV (I.sr.splitW range.start range.stop) k
  else Cost.ret []

/-- Locate of the classes of SrIndex with validity information -/
def locateC (I : SrIndexValid) (phi : Nat → Option (Nat × Bool)) (phiW : Nat → Cost (Nat × Bool)) (P : List Nat) : Cost (List Nat) :=
  I.sr.locateC (I.phiForRange phi) (I.phiForRangeC phi phiW) P

end SrIndexValid

/-! ## The functors over the runs of psi -/

namespace PsiCoreRLE

/-- the loop of selectCore (psi.h:582-587), see `selectLoop` -/
def selectLoopW (E : EncVector) (n rnk : Nat) : Nat → RunOps → Nat → Nat → Cost (RunSel × RunOps)
  | 0, _, _, _ => Cost.free none
  | f + 1, st, runEnd, rank => do
    let (s, st) ← RunOps.nextStartW E n st runEnd
    let (e, st) ← RunOps.nextEndW E n st s
    let d ← Cost.free (csub e s)
    if rank + d ≤ rnk then selectLoopW E n rnk f st e (rank + d)
    else return ({ start := s, stop := e, rankEnd := rank + d }, st)

/-- selectCore (psi.h:568-590), see `selectCore`: there the contract of std::upper_bound over the sampled ranks, here its search -/
def selectCoreW (E : EncVector) (ranks : List Nat) (n rnk : Nat) : Cost (RunSel × RunOps) := do
  let rnk ← Cost.free (csub rnk 1)
  let idx ← binarySearchW (fun i => ranks[i]?) rnk ranks.length 0 ranks.length
  let rank ← (if idx ≠ 0 then readW ranks (idx - 1) else Cost.ret 0)
  let st ← Cost.call (RunOps.init E idx)
  selectLoopW E n rnk (E.size + 1) st 0 rank

/-- select(c, rnk) (psi.h:115-121), see `select` -/
def selectW (P : PsiCoreRLE) (c rnk : Nat) : Cost Nat := do
  let (E, ranks) ← Cost.free (P.parts[c]?)
  let (run, _) ← selectCoreW E ranks P.n rnk
  Cost.free (selValue run rnk)

/-- select(c, rnk, report) (psi.h:127-135), see `selectReport` -/
def selectReportW (P : PsiCoreRLE) (c rnk : Nat) : Cost (Nat × Nat × Nat × Nat) := do
  let (E, ranks) ← Cost.free (P.parts[c]?)
  let (run, st) ← selectCoreW E ranks P.n rnk
  let v ← Cost.free (selValue run rnk)
  return (v, run.start, run.stop, st.soft)

/-- the loop of rankSoftRun(c, v) (psi.h:263-269), see `softLoop` -/
def softLoopW (E : EncVector) (v : Nat) : Nat → Nat → Nat → Nat → Nat → Cost (Nat × Nat × Nat)
  | 0, _, s, e, runs => Cost.ret (runs, s, e)
  | left + 1, ptr, s, e, runs => do
    if e < v then
      let (g, ptr) ← Cost.call (eliasDecode E.z ptr)
      if e + g ≤ v then
        let (l, ptr) ← Cost.call (eliasDecode E.z ptr)
        softLoopW E v left ptr (e + g) (e + g + l) (runs + 1)
      else return (runs, s, e)
    else return (runs, s, e)

/-- rankSoftRun(c, v) (psi.h:242-272), see `rankSoftRunC` -/
def rankSoftRunCW (P : PsiCoreRLE) (c v : Nat) : Cost (Nat × Nat) := do
  let (E, _) ← Cost.free (P.parts[c]?)
  let ub ← computeUpperBoundW E v
  if ub = 0 then return (0, P.n)
  else
    let idx := ub - 1
    let s ← readW E.sp (2 * idx)
    let runs := idx * E.dens / 2 + 1
    if s = v then return (runs, s)
    else
      let ptr ← readW E.sp (2 * idx + 1)
      let (l, ptr) ← Cost.call (eliasDecode E.z ptr)
      let rest ← Cost.free (csub E.size (idx * E.dens))
      let left ← Cost.free (csub (min E.dens rest / 2) 1)
      let (runs, s, e) ← softLoopW E v left ptr s (s + l) runs
      return (runs, if v < e then s else P.n)

/-- rankSoftRun(v) (psi.h:225-236), the loop over the symbols; see `softRunLoop` -/
def softRunLoopW (P : PsiCoreRLE) (v : Nat) : List Nat → Nat → Nat → Cost (Nat × Nat)
  | [], runs, start => Cost.ret (runs, start)
  | i :: is, runs, start => do
    let (k, s) ← P.rankSoftRunCW i v
    softRunLoopW P v is (runs + k) (if s ≠ P.n then s else start)

/-- rankRun (psi.h:215-220) with rankSoftRun(v) (psi.h:225-236), see `rankRun` -/
def rankRunW (P : PsiCoreRLE) (v : Nat) : Cost Nat := do
  let (runs, s) ← softRunLoopW P v (List.range P.parts.length) 0 P.n
  Cost.free (if v ≠ P.n ∧ s = v then csub runs 1 else some runs)

/-- rankCharRun (psi.h:277-284), see `rankCharRun`: the size of each part before the one of the symbol -/
def rankCharRunW (P : PsiCoreRLE) (c : Nat) : Cost Nat := do
  let sizes ← (List.range c).mapM (fun i => Cost.call ((P.parts[i]?).map (fun q => q.1.size / 2)))
  return sizes.sum

/-- the first loop of splitInRuns (psi.h:352-357), see `splitSkip` -/
def splitSkipW (E : EncVector) (n first : Nat) : Nat → RunOps → Nat → Nat → Nat → Cost (Nat × Nat × Nat × RunOps)
  | 0, _, _, _, _ => Cost.free none
  | f + 1, st, s, e, next => do
    if e ≤ first then
      let (e', st) ← RunOps.nextEndW E n st next
      let (next', st) ← RunOps.nextStartW E n st e'
      splitSkipW E n first f st next e' next'
    else return (s, e, next, st)

/-- the second loop of splitInRuns with the final report (psi.h:362-375), see `splitReport` -/
def splitReportW (E : EncVector) (n last c : Nat) : Nat → RunOps → Nat → Nat → Nat → Nat → Cost (List Piece)
  | 0, _, _, _, _, _ => Cost.free none
  | f + 1, st, first, s, e, next => do
    if next < last then
      let k ← Cost.free (csub st.soft 1)
      let (e', st') ← RunOps.nextEndW E n st next
      let (next', st') ← RunOps.nextStartW E n st' e'
      let rest ← splitReportW E n last c f st' next next e' next'
      return { first := first, last := e, c := c, idx := k, isFirst := decide (first = s) } :: rest
    else
      if first < min last e then
        let k ← Cost.free (csub st.soft 1)
        return [{ first := first, last := min last e, c := c, idx := k, isFirst := decide (first = s) }]
      else return []

/-- splitInRuns(c, first, last, report) (psi.h:338-376), see `splitInRunsC` -/
def splitInRunsCW (P : PsiCoreRLE) (c first last : Nat) : Cost (List Piece) := do
  let (E, _) ← Cost.free (P.parts[c]?)
  let ub ← computeUpperBoundW E first
  let idx := if ub ≠ 0 then ub - 1 else 0
  let st ← Cost.call (RunOps.init E idx)
  let (s, st) ← RunOps.nextStartW E P.n st 0
  let (e, st) ← RunOps.nextEndW E P.n st s
  let (next, st) ← RunOps.nextStartW E P.n st e
  let (s, e, next, st) ← splitSkipW E P.n first (E.size + 2) st s e next
  splitReportW E P.n last c (E.size + 2) st (max first s) s e next

/-- splitInRuns(first, last, report) (psi.h:325-329), see `splitInRuns` -/
def splitInRunsW (P : PsiCoreRLE) (first last : Nat) : Cost (List Piece) := do
  let ls ← (List.range P.parts.length).mapM (fun c => P.splitInRunsCW c first last)
  return ls.flatten

/-- splitInSortedRuns (psi.h:307-317), see `splitInSortedRuns` -/
def splitInSortedRunsW (P : PsiCoreRLE) (first last : Nat) : Cost (List Piece) := do
  let ls ← P.splitInRunsW first last
  return sortBy (fun x => x.first) ls

/-- the loop of computeForwardRuns with the final report (psi.h:410-420), see `forwardLoop` -/
def forwardLoopW (E : EncVector) (n last c : Nat) : Nat → RunOps → Nat → RunSel → Cost (List Piece)
  | 0, _, _, _ => Cost.free none
  | f + 1, st, first, run => do
    if run.rankEnd < last then
      let (s, st') ← RunOps.nextStartW E n st run.stop
      let (e, st') ← RunOps.nextEndW E n st' s
      let d ← Cost.free (csub e s)
      let rest ← forwardLoopW E n last c f st' s { start := s, stop := e, rankEnd := run.rankEnd + d }
      return { first := first, last := run.stop, c := c, idx := st.soft, isFirst := decide (first = run.start) } :: rest
    else
      let v ← Cost.free (selValue run last)
      return [{ first := first, last := v + 1, c := c, idx := st.soft, isFirst := decide (first = run.start) }]

/-- computeForwardRuns (psi.h:402-421), see `computeForwardRuns` -/
def computeForwardRunsW (P : PsiCoreRLE) (c first last : Nat) : Cost (List Piece) := do
  let (E, ranks) ← Cost.free (P.parts[c]?)
  let (run, st) ← selectCoreW E ranks P.n first
  let v ← Cost.free (selValue run first)
  let last ← Cost.free (csub last 1)
  forwardLoopW E P.n last c (E.size + 1) st v run

end PsiCoreRLE

/-- the phi functor of constructPhiForRange (r_csa.h:198-210, 556-568, sr_csa.h:116-134, sr_csa_psi.h:195-211), see `RCSA.phi` and `SrCSA.phi`,
    which differ in the validity `b` that is never read -/
def RCSA.phiW (I : RCSA) (b : Bool) (v : Nat) : Cost (Nat × Bool) :=
  phiForwardW (circularSoftSuccessorW I.marks I.n)
    (getSampleForPhiW (linkW I.markToSample b) (readW I.samples) validatorDefaultW) I.n v

/-- get_sa_value_for_bwt_run_start (r_csa.h:227-230), see `RCSABwt.saValueOfRun` -/
def RCSABwt.saValueOfRunC (I : RCSA) (pos : Nat) : Cost Nat := do
  let run ← I.psi.rankRunW pos
  let s ← readW I.samples run
  return s + 1

/-- get_sa_value_for_bwt_run_start (r_csa.h:585-588), see `RCSAPsi.saValueOfRun` -/
def RCSAPsi.saValueOfRunC (I : RCSA) (d : PsiRunData) : Cost Nat := do
  let prev ← I.psi.rankCharRunW d.c
  let s ← readW I.samples (prev + d.partialRank)
  return s + 1

/-- Locate of the r-CSAs (r_csa.h:103-118, 459-475), given their functors and how they value a run -/
def RCSA.locateC {β : Type} (I : RCSA) (F : Functors Range RangeRunLF (StepData β)) (v : β → Cost Nat) (P : List Nat) : Cost (List Nat) :=
  F.locateC I.lfW (computeAllValuesW (fun range k => phiLoopC (I.phiW true) (range.stop - range.start) k) (computeToeholdW v I.psi.n) RCSA.shrink) P

/-- computeCForSAIndex (psi.h:725-729), see `computeCForSAIndex`: there the contract of std::upper_bound over `C`, here its search -/
def computeCForSAIndexW (C : List Nat) (i : Nat) : Cost Nat := do
  let k ← binarySearchW (fun j => C[j]?) i C.length 0 C.length
  Cost.free (csub k 1)

/-- the functors in which the variants differ, with what they cost; see `ForwOps` -/
structure ForwOpsC where
  getSampleRun : FRun → Cost (Option Nat)
  getSampleData : FData → Cost (Option Nat)
  splitRange : Nat → Nat → Cost (List FRun)
  psiData : FData → Cost FData

namespace SrCSA

/-- `while (cum_next_c < last)` (sr_csa.h:101-107, sr_csa_psi.h:264-270), see `splitRunLoop` -/
def splitRunLoopW (I : SrCSA) (last : Nat) : Nat → Nat → Nat → Cost (List FRun)
  | 0, _, _ => Cost.free none
  | f + 1, c, cumNext =>
    if cumNext < last then do
      let c := c + 1
      let cum := cumNext
      let cumNext ← Cost.free (I.alphabet.C[c + 1]?)
      let w ← Cost.free (csub (min last cumNext) cum)
      let l ← I.psi.computeForwardRunsW c 1 (w + 1)
      let rest ← splitRunLoopW I last f c cumNext
      return l.map createRun ++ rest
    else Cost.ret []

/-- constructSplitRunInBWTRuns (sr_csa.h:79-110, sr_csa_psi.h:241-275), see `splitRun` -/
def splitRunW (I : SrCSA) (run : FRun) : Cost (List FRun) := do
  let c ← computeCForSAIndexW I.alphabet.C run.start
  let cum ← Cost.free (I.alphabet.C[c]?)
  let cumNext ← Cost.free (I.alphabet.C[c + 1]?)
  let a ← Cost.free (csub run.start cum)
  let w ← Cost.free (csub (min run.stop cumNext) cum)
  let l ← I.psi.computeForwardRunsW c (a + 1) (w + 1)
  let rest ← I.splitRunLoopW run.stop (I.alphabet.C.length + 1) c cumNext
  return l.map createRun ++ rest

/-- get_sample of SrCSASlim and SrCSAWithPsiRun (sr_csa.h:283-293, sr_csa_psi.h:143-159), see `getSampleIdx` -/
def getSampleIdxW (I : SrCSA) (c rank : Nat) (isRunStart : Bool) : Cost (Option Nat) :=
  if !isRunStart then Cost.ret none
  else do
    let cc ← Cost.free (if 0 < c then I.cumRuns[c - 1]? else some 0)
    let b ← readW I.samplesIdx (cc + rank)
    if !b then return none
    else do
      let k ← Cost.call (bvRank I.samplesIdx (cc + rank))
      let v ← readW I.samples k
      return some v

/-- psi over run data of SrCSASlim and SrCSAWithPsiRun (sr_csa.h:358-376, sr_csa_psi.h:277-298), see `psiData` -/
def psiDataW (I : SrCSA) (d : FData) : Cost FData := do
  let c ← computeCForSAIndexW I.alphabet.C d.pos
  let b ← Cost.free (I.alphabet.C[c]?)
  let k ← Cost.free (csub d.pos b)
  let (pos, start, _, rank) ← I.psi.selectReportW c (k + 1)
  return { pos := pos, c := c, rank := rank, isRunStart := decide (pos = start) }

/-- SrCSASlim (sr_csa.h:168-377) and SrCSAWithPsiRun (sr_csa_psi.h:14-314), see `slimOps` -/
def slimOpsC (I : SrCSA) : ForwOpsC where
  getSampleRun := fun r => I.getSampleIdxW r.c r.rank r.isRunStart
  getSampleData := fun d => I.getSampleIdxW d.c d.rank d.isRunStart
  splitRange := fun first last => do
    let l ← I.psi.splitInSortedRunsW first last
    return l.map createRun
  psiData := I.psiDataW

/-- get_sample of SrCSA (sr_csa.h:481-485), see `getSamplePos` -/
def getSamplePosW (I : SrCSA) (pos : Nat) : Cost (Option Nat) := do
  let b ← readW I.samplesIdx pos
  if b then do
    let k ← Cost.call (bvRank I.samplesIdx pos)
    let v ← readW I.samples k
    return some v
  else return none

/-- the loop that cuts a range at the sampled positions (sr_csa.h:531-538), see `cutLoop` -/
def cutLoopW (I : SrCSA) (last : Nat) : Nat → Nat → Nat → Cost (List FRun)
  | 0, _, runStart => Cost.ret [{ start := runStart, stop := last, c := 0, rank := 0, isRunStart := false }]
  | k + 1, i, runStart => do
    let runEnd ← Cost.call (bvSelect I.samplesIdx i)
    let rest ← cutLoopW I last k (i + 1) runEnd
    return { start := runStart, stop := runEnd, c := 0, rank := 0, isRunStart := false } :: rest

/-- constructSplitRangeInBWTRuns of SrCSA (sr_csa.h:512-543), see `cutRange` -/
def cutRangeW (I : SrCSA) (first last : Nat) : Cost (List FRun) := do
  let a ← Cost.call (bvRank I.samplesIdx (first + 1))
  let b ← Cost.call (bvRank I.samplesIdx last)
  I.cutLoopW last (b - a) (a + 1) first

/-- psi over run data of SrCSA (sr_csa.h:548-562), see `psiPos` -/
def psiPosW (I : SrCSA) (d : FData) : Cost FData := do
  let c ← computeCForSAIndexW I.alphabet.C d.pos
  let b ← Cost.free (I.alphabet.C[c]?)
  let k ← Cost.free (csub d.pos b)
  let p ← I.psi.selectW c (k + 1)
  return { d with pos := p }

/-- SrCSA (sr_csa.h:386-563), see `posOps` -/
def posOpsC (I : SrCSA) : ForwOpsC where
  getSampleRun := fun r => I.getSamplePosW r.start
  getSampleData := fun d => I.getSamplePosW d.pos
  splitRange := I.cutRangeW
  psiData := I.psiPosW

/-- the functors handed to PhiForwardForRange (sr_csa.h:136-145, sr_csa_psi.h:300-310), see `rangePhi` -/
def rangePhiC (I : SrCSA) (O : ForwOps) (OC : ForwOpsC) (phi : Nat → Option (Nat × Bool)) (phiW : Nat → Cost (Nat × Bool)) :
    RangePhiC FRun where
  plain := I.rangePhi O phi
  phi := phiW
  getSample := OC.getSampleRun
  splitRun := I.splitRunW
  navigate := fun _ => Cost.free none

/-- PhiForwardForRange::operator() (phi.h:402-412), see `phiForRange` -/
def phiForRangeC (I : SrCSA) (O : ForwOps) (OC : ForwOpsC) (range : Range) (k : Nat) : Cost (List Nat) :=
  if range.start < range.stop then do
    let runs ← OC.splitRange range.start range.stop
    (I.rangePhiC O OC I.phi (I.phiW false)).forwRange runs k
  else Cost.ret []

/-- Locate of the sub-sampled r-CSAs (sr_csa.h:150-154, 239-263, 449-476, sr_csa_psi.h:97-119, 128-134), given the functor for the rest of
    the range -/
def locateC (I : SrCSA) (O : ForwOps) (OC : ForwOpsC) (g : Range → Nat → Option (List Nat)) (w : Range → Nat → Cost (List Nat)) (P : List Nat) :
    Cost (List Nat) :=
  (I.functorsWith O g).locateC I.lfW
    (computeAllValuesW w (computeToeholdW (saValueForwardC OC.getSampleData OC.psiData (I.n + 2) I.n) I.n) RCSA.shrink) P

end SrCSA

namespace SrCSAValid

/-- phi of the ValidMark classes (sr_csa.h:637-650, sr_csa_psi.h:372-390), see `phiMark` -/
def phiMarkW (I : SrCSAValid) (v : Nat) : Cost (Nat × Bool) :=
  phiForwardW (circularSoftSuccessorW I.csa.marks I.csa.n)
    (getSampleForPhiW (linkValidW I.csa.markToSample I.validMarks) (readW I.csa.samples) validatorDefaultW) I.csa.n v

/-- phi of the ValidArea classes (sr_csa.h:720-743, sr_csa_psi.h:439-459), see `phiArea` -/
def phiAreaW (I : SrCSAValid) (v : Nat) : Cost (Nat × Bool) :=
  phiForwardW (circularSoftSuccessorW I.csa.marks I.csa.n)
    (getSampleForPhiW (linkValidW I.csa.markToSample I.validMarks) (readW I.csa.samples)
      (validatorAreaW I.validMarks I.validAreas)) I.csa.n v

/-- PhiForwardForRangeWithValidity::operator() (phi.h:686-697), see `phiForRange` -/
def phiForRangeC (I : SrCSAValid) (O : ForwOps) (OC : ForwOpsC) (phi : Nat → Option (Nat × Bool)) (phiW : Nat → Cost (Nat × Bool))
    (range : Range) (k : Nat) : Cost (List Nat) :=
  if range.start < range.stop then
    (I.csa.rangePhiC O OC phi phiW).forwRangeV (OC.splitRange range.start range.stop) k
  else Cost.ret []

/-- Locate of the classes of the sub-sampled r-CSAs with validity information -/
def locateC (I : SrCSAValid) (O : ForwOps) (OC : ForwOpsC) (phi : Nat → Option (Nat × Bool)) (phiW : Nat → Cost (Nat × Bool)) (P : List Nat) :
    Cost (List Nat) :=
  I.csa.locateC O OC (I.phiForRange O phi) (I.phiForRangeC O OC phi phiW) P

end SrCSAValid

/-- Locate of every index, with the operations it makes -/
def locateOps (t : IndexType) (T sa : List Nat) (s : Nat) : Option (List Nat → Cost (List Nat)) :=
  match t with
  | .rIndex => (RIndex.build T sa).map RIndex.locateC
  | .srIndex => (SrIndex.build T sa s).map (fun I => I.locateC I.phiForRange I.phiForRangeC)
  | .srIndexValidMark => (SrIndexValid.build T sa s).map (fun I => I.locateC I.phiMark I.phiMarkW)
  | .srIndexValidArea => (SrIndexValid.build T sa s).map (fun I => I.locateC I.phiArea I.phiAreaW)
  | .rcsaWithBWTRun => (RCSABwt.build T sa).map (fun I => I.locateC (RCSABwt.functors I) (RCSABwt.saValueOfRunC I))
  | .rcsaWithPsiRun => (RCSAPsi.build T sa).map (fun I => I.locateC (RCSAPsi.functors I) (RCSAPsi.saValueOfRunC I))
  | .srCSA => (SrCSA.build T sa s).map (fun I => I.locateC I.posOps I.posOpsC (I.phiForRange I.posOps) (I.phiForRangeC I.posOps I.posOpsC))
  | .srCSASlim => (SrCSA.buildSlim T sa s).map (fun I => I.locateC I.slimOps I.slimOpsC (I.phiForRange I.slimOps) (I.phiForRangeC I.slimOps I.slimOpsC))
  | .srCSAValidMark => (SrCSAValid.build T sa s).map (fun I => I.locateC I.csa.posOps I.csa.posOpsC I.phiMark I.phiMarkW)
  | .srCSAValidArea => (SrCSAValid.build T sa s).map (fun I => I.locateC I.csa.posOps I.csa.posOpsC I.phiArea I.phiAreaW)
  | .srCSASlimValidMark => (SrCSAValid.buildSlim T sa s).map (fun I => I.locateC I.csa.slimOps I.csa.slimOpsC I.phiMark I.phiMarkW)
  | .srCSASlimValidArea => (SrCSAValid.buildSlim T sa s).map (fun I => I.locateC I.csa.slimOps I.csa.slimOpsC I.phiArea I.phiAreaW)
  | .srCSAWithPsiRun => (SrCSA.buildPsi T sa s).map (fun I => I.locateC I.slimOps I.slimOpsC (I.phiForRange I.slimOps) (I.phiForRangeC I.slimOps I.slimOpsC))
  | .psiValidMark => (SrCSAValid.buildPsi T sa s).map (fun I => I.locateC I.csa.slimOps I.csa.slimOpsC I.phiMark I.phiMarkW)
  | .psiValidArea => (SrCSAValid.buildPsi T sa s).map (fun I => I.locateC I.csa.slimOps I.csa.slimOpsC I.phiArea I.phiAreaW)

end Sri

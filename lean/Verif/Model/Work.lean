import Verif.Model.AllIndexes
/-! # The work of a Locate query

The functions a Locate query runs, written again so that they also count the calls of the functors the index was put together from. Calls of
`lf`, `phi`, of the look-up of a sample and of the steps of the navigation count 1 each; a split counts 1 and 1 more per run it reports.
Arithmetic, comparisons and reports are free. Every function here computes what the function it repeats computes (Proofs/Work). -/
namespace Sri
set_option autoImplicit false

/-- a computation with the number of calls it made; `none` is undefined behaviour, as everywhere -/
def Cost (α : Type) : Type := Option (α × Nat)

namespace Cost

/-- a computation that makes no call -/
def ret {α : Type} (a : α) : Cost α := some (a, 0)

/-- one computation after another: the calls add up -/
def andThen {α β : Type} (x : Cost α) (f : α → Cost β) : Cost β :=
  match x with
  | none => none
  | some (a, c) => match f a with
    | none => none
    | some (b, d) => some (b, c + d)

instance : Monad Cost where
  pure := ret
  bind := andThen

/-- what is computed -/
def val {α : Type} (x : Cost α) : Option α := Option.map Prod.fst x

/-- work that is not counted -/
def free {α : Type} (o : Option α) : Cost α := o.map (fun a => (a, 0))

/-- one call of a functor -/
def call {α : Type} (o : Option α) : Cost α := o.map (fun a => (a, 1))

/-- one call of a functor that reports a list, and its reports -/
def split {α : Type} (o : Option (List α)) : Cost (List α) := o.map (fun l => (l, 1 + l.length))

end Cost

namespace Functors
variable {ρ ν δ : Type}

/-- loop of Locate (index_base.h:240-248), see `locateLoop`. The update of the toehold reads the result of `lf` only. -/
def locateLoopW (F : Functors ρ ν δ) : List Nat → ρ → δ → Cost (ρ × δ)
  | [], range, data => Cost.ret (range, data)
  | ch :: rest, range, data =>
    if F.isEmpty range then Cost.ret (range, data)
    else do
      let c := F.getSymbol ch
      let next ← Cost.call (F.lf range c)
      let data ← Cost.free (F.update range next c rest.length data)
      locateLoopW F rest (F.toRange next) data

/-- Locate (index_base.h:223-254), see `locate` -/
def locateW (F : Functors ρ ν δ) (computeAll : ρ → δ → Cost (List Nat)) (P : List Nat) : Cost (List Nat) := do
  let (range, data) ← F.locateLoopW P.reverse (F.fullRange F.bwtSize) (F.initial (P.length - 1))
  if F.isEmpty range then return [] else computeAll range data

end Functors

/-- ComputeAllValuesWithPhiForRange::operator() (phi.h:788-798), see `computeAllValues` -/
def computeAllValuesW {ρ δ : Type} (phiForRange : ρ → Nat → Cost (List Nat)) (toehold : δ → Cost Nat)
    (updateRange : ρ → Option ρ) (range : ρ) (data : δ) : Cost (List Nat) := do
  let k ← toehold data
  let range ← Cost.free (updateRange range)
  let rest ← phiForRange range k
  return k :: rest

/-- ComputeToehold::operator() (toehold.h:119-127), see `computeToehold` -/
def computeToeholdW {β : Type} (getSAValue : β → Cost Nat) (n : Nat) (data : StepData β) : Cost Nat := do
  let v ← getSAValue data.run
  let x ← Cost.free (csub (v + n) data.step)
  let x ← Cost.free (csub x 1)
  Cost.free (cmod x n)

/-- the loop of the original r-index (r_index.h:252-258, r_csa.h:219-226, 579-586), see `phiLoop` -/
def phiLoopW (phi : Nat → Option (Nat × Bool)) : Nat → Nat → Cost (List Nat)
  | 0, _ => Cost.ret []
  | len + 1, k => do
    let (k, _) ← Cost.call (phi k)
    let rest ← phiLoopW phi len k
    return k :: rest

/-- ComputeSAValue::operator() (tools.h:325-338), the loop; see `findSample` -/
def findSampleW {β : Type} (getSample : β → Option (Option Nat)) (navigate : β → Option β) : Nat → β → Cost (Nat × Nat)
  | 0, _ => Cost.free none
  | fuel + 1, d => do
    let s ← Cost.call (getSample d)
    match s with
    | some x => return (x, 0)
    | none => do
      let d ← Cost.call (navigate d)
      let (x, j) ← findSampleW getSample navigate fuel d
      return (x, j + 1)

/-- buildComputeSAValueBackward (tools.h:325-338, 348-351), see `saValueBackward` -/
def saValueBackwardW {β : Type} (getSample : β → Option (Option Nat)) (navigate : β → Option β) (fuel n : Nat) (d : β) : Cost Nat := do
  let (x, j) ← findSampleW getSample navigate fuel d
  Cost.free (cmod (x + 1 + n + j) n)

/-- buildComputeSAValueForward (tools.h:325-338, 353-356), see `saValueForward` -/
def saValueForwardW {β : Type} (getSample : β → Option (Option Nat)) (navigate : β → Option β) (fuel n : Nat) (d : β) : Cost Nat := do
  let (x, j) ← findSampleW getSample navigate fuel d
  let y ← Cost.free (csub (x + 1 + n) j)
  Cost.free (cmod y n)

namespace RangePhi
variable {R : Type}

/-- phi.h:318-323, 421-425, see `phiWhile` -/
def phiWhileW (F : RangePhi R) : Nat → R → Nat → Cost (List Nat × Nat)
  | 0, _, _ => Cost.free none
  | fuel + 1, run, prev => do
    let (v, _) ← Cost.call (F.phi prev)
    let run ← Cost.free (F.updateRun run)
    if F.isRunEmpty run then return ([v], v)
    else do
      let (l, e) ← phiWhileW F fuel run v
      return (v :: l, e)

/-- PhiBackwardForRange::computeForRuns (phi.h:291-311), see `backRuns` -/
def backRunsW (F : RangePhi R) (level : Nat) (next : R → Nat → Cost (List Nat × Nat)) : List R → Nat → Cost (List Nat × Nat)
  | [], prev => Cost.ret ([], prev)
  | run :: rest, prev => do
    let sample ← Cost.call (F.getSample run)
    let (rep, prev, run) ← (match sample with
      | some x => do
        let v ← Cost.free (cmod (x + 1 + level) F.seqSize)
        let run ← Cost.free (F.updateRun run)
        return ([v], v, run)
      | none => return ([], prev, run))
    let (rep2, prev) ← (if F.isRunEmpty run then return ([], prev)
      else do
        let nr ← Cost.call (F.navigate run)
        next nr prev)
    let (rep3, prev) ← backRunsW F level next rest prev
    return (rep ++ rep2 ++ rep3, prev)

/-- PhiBackwardForRange::compute (phi.h:313-330), see `backCompute` -/
def backComputeW (F : RangePhi R) : Nat → Nat → R → Nat → Cost (List Nat × Nat)
  | 0, _, _, _ => Cost.free none
  | depth + 1, level, run, prev =>
    if F.samplingSize ≤ level then F.phiWhileW F.seqSize run prev
    else do
      let runs ← Cost.split (F.splitRun run)
      F.backRunsW level (backComputeW F depth (level + 1)) runs.reverse prev

/-- PhiBackwardForRange::operator() (phi.h:283-289), see `backRange` -/
def backRangeW (F : RangePhi R) (runs : List R) (prev : Nat) : Cost (List Nat) := do
  let (l, _) ← F.backRunsW 0 (F.backComputeW (F.samplingSize + 1) 1) runs.reverse prev
  return l

/-- phi.h:611-617, 718-723, see `reportValid` -/
def reportValidW (F : RangePhi R) : Nat → R → Nat → Bool → Cost (List Nat × R × Nat × Bool)
  | fuel, run, value, valid =>
    if F.isRunEmpty run || !valid then Cost.ret ([], run, value, valid)
    else match fuel with
      | 0 => Cost.free none
      | fuel + 1 => do
        let run ← Cost.free (F.updateRun run)
        let (v, ok) ← Cost.call (F.phi value)
        let (l, e) ← reportValidW F fuel run v ok
        return (value :: l, e)

/-- phi.h:608-630, 715-731, see `runValid` -/
def runValidW (F : RangePhi R) (toValue : Nat → Option Nat) : Nat → R → Nat → Bool → Cost (List Nat × R × Nat × Bool)
  | 0, _, _, _ => Cost.free none
  | fuel + 1, run, value, valid => do
    let (l, run, value, valid) ← F.reportValidW F.seqSize run value valid
    if F.isRunEmpty run then return (l, run, value, valid)
    else do
      let sample ← Cost.call (F.getSample run)
      match sample with
      | some x => do
        let v ← Cost.free (toValue x)
        let (l2, e) ← runValidW F toValue fuel run v true
        return (l ++ l2, e)
      | none =>
        if valid then do
          let (l2, e) ← runValidW F toValue fuel run value valid
          return (l ++ l2, e)
        else return (l, run, value, valid)

/-- phi.h:645-651, 702-707, see `phiWhileV` -/
def phiWhileVW (F : RangePhi R) : Nat → R → Nat → Cost (List Nat × Nat × Bool)
  | 0, _, _ => Cost.free none
  | fuel + 1, run, value => do
    let run ← Cost.free (F.updateRun run)
    let (v, ok) ← Cost.call (F.phi value)
    if F.isRunEmpty run then return ([value], v, ok)
    else do
      let (l, e) ← phiWhileVW F fuel run v
      return (value :: l, e)

/-- PhiBackwardForRangeWithValidity::computeForRuns (phi.h:601-640), see `backRunsV` -/
def backRunsVW (F : RangePhi R) (level : Nat) (next : R → Nat → Bool → Cost (List Nat × Nat × Bool)) :
    List R → Nat → Bool → Cost (List Nat × Nat × Bool)
  | [], value, valid => Cost.ret ([], value, valid)
  | run :: rest, value, valid => do
    let (rep, run, value, valid) ← F.runValidW (fun x => cmod (x + 1 + level) F.seqSize) (F.seqSize + 2) run value valid
    let (rep2, value, valid) ← (if F.isRunEmpty run then return ([], value, valid)
      else do
        let nr ← Cost.call (F.navigate run)
        next nr value valid)
    let (rep3, e) ← backRunsVW F level next rest value valid
    return (rep ++ rep2 ++ rep3, e)

/-- PhiBackwardForRangeWithValidity::compute (phi.h:642-660), see `backComputeV` -/
def backComputeVW (F : RangePhi R) : Nat → Nat → R → Nat → Bool → Cost (List Nat × Nat × Bool)
  | 0, _, _, _, _ => Cost.free none
  | depth + 1, level, run, value, valid =>
    if F.samplingSize ≤ level then F.phiWhileVW F.seqSize run value
    else do
      let runs ← Cost.split (F.splitRun run)
      F.backRunsVW level (backComputeVW F depth (level + 1)) runs.reverse value valid

/-- PhiBackwardForRangeWithValidity::operator() (phi.h:590-599), see `backRangeV` -/
def backRangeVW (F : RangePhi R) (runs : Option (List R)) (prev : Nat) : Cost (List Nat) := do
  let (value, valid) ← Cost.call (F.phi prev)
  let runs ← Cost.split runs
  let (l, _) ← F.backRunsVW 0 (F.backComputeVW (F.samplingSize + 1) 1) runs.reverse value valid
  return l

/-- PhiForwardForRange::compute (phi.h:416-445), see `forwCompute` -/
def forwComputeW (F : RangePhi R) : Nat → Nat → R → Nat → Cost (List Nat × Nat)
  | 0, _, _, _ => Cost.free none
  | depth + 1, level, run, prev =>
    if F.samplingSize < level then F.phiWhileW F.seqSize run prev
    else do
      let sample ← Cost.call (F.getSample run)
      let (rep, prev, run) ← (match sample with
        | some x => do
          let y ← Cost.free (csub (x + 1 + F.seqSize) level)
          let v ← Cost.free (cmod (y + 1) F.seqSize)
          let run ← Cost.free (F.updateRun run)
          return ([v], v, run)
        | none => return ([], prev, run))
      if F.isRunEmpty run then return (rep, prev)
      else do
        let runs ← Cost.split (F.splitRun run)
        let (rep2, prev) ← runs.foldlM (fun (acc : List Nat × Nat) r => do
          let (l, p) ← forwComputeW F depth (level + 1) r acc.2
          return (acc.1 ++ l, p)) ([], prev)
        return (rep ++ rep2, prev)

/-- PhiForwardForRange::operator() (phi.h:405-414), see `forwRange` -/
def forwRangeW (F : RangePhi R) (runs : List R) (prev : Nat) : Cost (List Nat) := do
  let (l, _) ← runs.foldlM (fun (acc : List Nat × Nat) r => do
    let (l, p) ← F.forwComputeW (F.samplingSize + 1) 1 r acc.2
    return (acc.1 ++ l, p)) ([], prev)
  return l

/-- PhiForwardForRangeWithValidity::compute (phi.h:699-740), see `forwComputeV` -/
def forwComputeVW (F : RangePhi R) : Nat → Nat → R → Nat → Bool → Cost (List Nat × Nat × Bool)
  | 0, _, _, _, _ => Cost.free none
  | depth + 1, level, run, value, valid =>
    if F.samplingSize < level then F.phiWhileVW F.seqSize run value
    else do
      let (rep, run, value, valid) ← F.runValidW
        (fun x => do
          let y ← csub (x + 1 + F.seqSize) level
          cmod (y + 1) F.seqSize) (F.seqSize + 2) run value valid
      if F.isRunEmpty run then return (rep, value, valid)
      else do
        let runs ← Cost.split (F.splitRun run)
        let (rep2, value, valid) ← runs.foldlM (fun (acc : List Nat × Nat × Bool) r => do
          let (l, e) ← forwComputeVW F depth (level + 1) r acc.2.1 acc.2.2
          return (acc.1 ++ l, e)) ([], value, valid)
        return (rep ++ rep2, value, valid)

/-- PhiForwardForRangeWithValidity::operator() (phi.h:689-697), see `forwRangeV` -/
def forwRangeVW (F : RangePhi R) (runs : Option (List R)) (prev : Nat) : Cost (List Nat) := do
  let (value, valid) ← Cost.call (F.phi prev)
  let runs ← Cost.split runs
  let (l, _) ← runs.foldlM (fun (acc : List Nat × Nat × Bool) r => do
    let (l, e) ← F.forwComputeVW (F.samplingSize + 1) 1 r acc.2.1 acc.2.2
    return (acc.1 ++ l, e)) ([], value, valid)
  return l

end RangePhi

/-! ## Every index -/

/-- get_sa_value_for_run_data (r_index.h:217-220), see `RIndex.saValueOfRun` -/
def RIndex.saValueOfRunW (I : RIndex) (d : RunData) : Cost Nat := do
  let run ← Cost.call (I.bwtRle.selectOnRuns d.lastRunRnk d.c)
  let s ← Cost.call (I.samples[run]?)
  return s + 1

/-- Locate of RIndex (r_index.h:103-114, 213-224, 249-270) -/
def RIndex.locateW (I : RIndex) (P : List Nat) : Cost (List Nat) :=
  I.functors.locateW (computeAllValuesW (fun range k => phiLoopW I.phi (range.stop - range.start) k)
    (computeToeholdW I.saValueOfRunW I.bwtRle.size) RIndex.shrink) P

/-- compute_sa_value_for_run_data (sr_index.h:162-166), see `SrIndex.saValueOfRun` -/
def SrIndex.saValueOfRunW (I : SrIndex) (d : RunDataExt) : Cost Nat := do
  let run ← Cost.call (I.base.bwtRle.selectOnRuns d.lastRunRnk d.c)
  saValueBackwardW I.getSampleData I.lfData (I.base.n + 1) I.base.n { d with lastRunRnk := run }

/-- PhiBackwardForRange::operator() (phi.h:283-289) with constructPhiForRange (sr_index.h:219-245), see `SrIndex.phiForRange` -/
def SrIndex.phiForRangeW (I : SrIndex) (range : Range) (k : Nat) : Cost (List Nat) :=
  if range.start < range.stop then do
    let runs ← Cost.split (I.split range.start range.stop)
    (I.rangePhi I.base.phi).backRangeW runs k
  else Cost.ret []

/-- Locate of SrIndex and its validity classes (sr_index.h:93-104, 139-169), given the functor for the rest of the range -/
def SrIndex.locateW (I : SrIndex) (g : Range → Nat → Option (List Nat)) (w : Range → Nat → Cost (List Nat)) (P : List Nat) : Cost (List Nat) :=
  (I.functorsWith g).locateW (computeAllValuesW w (computeToeholdW I.saValueOfRunW I.base.bwtRle.size) RIndex.shrink) P

/-- PhiBackwardForRangeWithValidity::operator() (phi.h:590-599) with constructPhiForRange (sr_index.h:319-345), see
    `SrIndexValid.phiForRange` -/
def SrIndexValid.phiForRangeW (I : SrIndexValid) (phi : Nat → Option (Nat × Bool)) (range : Range) (k : Nat) : Cost (List Nat) :=
  if range.start < range.stop then
    (I.sr.rangePhi phi).backRangeVW (I.sr.split range.start range.stop) k
  else Cost.ret []

/-- get_sa_value_for_bwt_run_start (r_csa.h:227-230), see `RCSABwt.saValueOfRun` -/
def RCSABwt.saValueOfRunW (I : RCSA) (pos : Nat) : Cost Nat := do
  let run ← Cost.call (I.psi.rankRun pos)
  let s ← Cost.call (I.samples[run]?)
  return s + 1

/-- get_sa_value_for_bwt_run_start (r_csa.h:585-588), see `RCSAPsi.saValueOfRun` -/
def RCSAPsi.saValueOfRunW (I : RCSA) (d : PsiRunData) : Cost Nat := do
  let prev ← Cost.call (I.psi.rankCharRun d.c)
  let s ← Cost.call (I.samples[prev + d.partialRank]?)
  return s + 1

/-- Locate of the r-CSAs (r_csa.h:103-118, 459-475), given their functors and how they value a run -/
def RCSA.locateW {β : Type} (I : RCSA) (F : Functors Range RangeRunLF (StepData β)) (v : β → Cost Nat) (P : List Nat) : Cost (List Nat) :=
  F.locateW (computeAllValuesW (fun range k => phiLoopW I.phi (range.stop - range.start) k) (computeToeholdW v I.psi.n) RCSA.shrink) P

/-- PhiForwardForRange::operator() (phi.h:402-412), see `SrCSA.phiForRange` -/
def SrCSA.phiForRangeW (I : SrCSA) (O : ForwOps) (range : Range) (k : Nat) : Cost (List Nat) :=
  if range.start < range.stop then do
    let runs ← Cost.split (O.splitRange range.start range.stop)
    (I.rangePhi O I.phi).forwRangeW runs k
  else Cost.ret []

/-- PhiForwardForRangeWithValidity::operator() (phi.h:686-697), see `SrCSAValid.phiForRange` -/
def SrCSAValid.phiForRangeW (I : SrCSAValid) (O : ForwOps) (phi : Nat → Option (Nat × Bool)) (range : Range) (k : Nat) : Cost (List Nat) :=
  if range.start < range.stop then
    (I.csa.rangePhi O phi).forwRangeVW (O.splitRange range.start range.stop) k
  else Cost.ret []

/-- Locate of the sub-sampled r-CSAs (sr_csa.h:150-154, 239-263, 449-476, sr_csa_psi.h:97-119, 128-134), given the functor for the rest of
    the range -/
def SrCSA.locateW (I : SrCSA) (O : ForwOps) (g : Range → Nat → Option (List Nat)) (w : Range → Nat → Cost (List Nat)) (P : List Nat) :
    Cost (List Nat) :=
  (I.functorsWith O g).locateW
    (computeAllValuesW w (computeToeholdW (saValueForwardW O.getSampleData O.psiData (I.n + 2) I.n) I.n) RCSA.shrink) P

/-- Locate of the classes of SrIndex with validity information -/
def SrIndexValid.locateW (I : SrIndexValid) (phi : Nat → Option (Nat × Bool)) (P : List Nat) : Cost (List Nat) :=
  I.sr.locateW (I.phiForRange phi) (I.phiForRangeW phi) P

/-- Locate of the classes of the sub-sampled r-CSAs with validity information -/
def SrCSAValid.locateW (I : SrCSAValid) (O : ForwOps) (phi : Nat → Option (Nat × Bool)) (P : List Nat) : Cost (List Nat) :=
  I.csa.locateW O (I.phiForRange O phi) (I.phiForRangeW O phi) P

/-- Locate of every index, with the work it does -/
def locateWork (t : IndexType) (T sa : List Nat) (s : Nat) : Option (List Nat → Cost (List Nat)) :=
  match t with
  | .rIndex => (RIndex.build T sa).map RIndex.locateW
  | .srIndex => (SrIndex.build T sa s).map (fun I => I.locateW I.phiForRange I.phiForRangeW)
  | .srIndexValidMark => (SrIndexValid.build T sa s).map (fun I => I.locateW I.phiMark)
  | .srIndexValidArea => (SrIndexValid.build T sa s).map (fun I => I.locateW I.phiArea)
  | .rcsaWithBWTRun => (RCSABwt.build T sa).map (fun I => I.locateW (RCSABwt.functors I) (RCSABwt.saValueOfRunW I))
  | .rcsaWithPsiRun => (RCSAPsi.build T sa).map (fun I => I.locateW (RCSAPsi.functors I) (RCSAPsi.saValueOfRunW I))
  | .srCSA => (SrCSA.build T sa s).map (fun I => I.locateW I.posOps (I.phiForRange I.posOps) (I.phiForRangeW I.posOps))
  | .srCSASlim => (SrCSA.buildSlim T sa s).map (fun I => I.locateW I.slimOps (I.phiForRange I.slimOps) (I.phiForRangeW I.slimOps))
  | .srCSAValidMark => (SrCSAValid.build T sa s).map (fun I => I.locateW I.csa.posOps I.phiMark)
  | .srCSAValidArea => (SrCSAValid.build T sa s).map (fun I => I.locateW I.csa.posOps I.phiArea)
  | .srCSASlimValidMark => (SrCSAValid.buildSlim T sa s).map (fun I => I.locateW I.csa.slimOps I.phiMark)
  | .srCSASlimValidArea => (SrCSAValid.buildSlim T sa s).map (fun I => I.locateW I.csa.slimOps I.phiArea)
  | .srCSAWithPsiRun => (SrCSA.buildPsi T sa s).map (fun I => I.locateW I.slimOps (I.phiForRange I.slimOps) (I.phiForRangeW I.slimOps))
  | .psiValidMark => (SrCSAValid.buildPsi T sa s).map (fun I => I.locateW I.csa.slimOps I.phiMark)
  | .psiValidArea => (SrCSAValid.buildPsi T sa s).map (fun I => I.locateW I.csa.slimOps I.phiArea)

end Sri

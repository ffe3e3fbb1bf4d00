import Verif.Model.Phi
/-! # phi.h: the functors that report all the values of a range of a sub-sampled index

Each functor of the C++ classes is a field of `RangePhi`. `update_run_` mutates its argument; here it returns the new run. A report
callback is modelled by the list of reported values. -/
namespace Sri
set_option autoImplicit false

/-- functors of PhiBackwardForRange, PhiForwardForRange and their WithValidity versions (phi.h:255-281, 379-403, 561-588, 663-687).
    `R` is the type of runs. `navigate` is only used by the backward classes (`lf_`), `fuel` bounds the number of positions of a run. -/
structure RangePhi (R : Type) where
  phi : Nat → Option (Nat × Bool)
  getSample : R → Option (Option Nat)
  splitRun : R → Option (List R)
  navigate : R → Option R
  samplingSize : Nat
  seqSize : Nat
  updateRun : R → Option R
  isRunEmpty : R → Bool

namespace RangePhi
variable {R : Type}

/-- `do { prev = phi(prev); report(prev); update(run) } while (!empty(run))` (phi.h:318-323, 421-425); `fuel` bounds the rounds -/
def phiWhile (F : RangePhi R) : Nat → R → Nat → Option (List Nat × Nat)
  | 0, _, _ => none
  | fuel + 1, run, prev => do
    let (v, _) ← F.phi prev
    let run ← F.updateRun run
    if F.isRunEmpty run then return ([v], v)
    else do
      let (l, e) ← phiWhile F fuel run v
      return (v :: l, e)

/-- PhiBackwardForRange::computeForRuns (phi.h:291-311) over the runs in the order they are visited; `next` is
    `compute(·, ·, level + 1)`. Returns the reports and the last value. -/
def backRuns (F : RangePhi R) (level : Nat) (next : R → Nat → Option (List Nat × Nat)) : List R → Nat → Option (List Nat × Nat)
  | [], prev => some ([], prev)
  | run :: rest, prev => do
    let sample ← F.getSample run
    let (rep, prev, run) ← (match sample with
      | some x => do
        let v ← cmod (x + 1 + level) F.seqSize
        let run ← F.updateRun run
        return ([v], v, run)
      | none => return ([], prev, run))
    let (rep2, prev) ← (if F.isRunEmpty run then return ([], prev)
      else do
        let nr ← F.navigate run
        next nr prev)
    let (rep3, prev) ← backRuns F level next rest prev
    return (rep ++ rep2 ++ rep3, prev)

/-- PhiBackwardForRange::compute (phi.h:313-330). The first argument bounds the recursion depth. -/
def backCompute (F : RangePhi R) : Nat → Nat → R → Nat → Option (List Nat × Nat)
  | 0, _, _, _ => none
  | depth + 1, level, run, prev =>
    if F.samplingSize ≤ level then F.phiWhile F.seqSize run prev
    else do
      let runs ← F.splitRun run
      F.backRuns level (backCompute F depth (level + 1)) runs.reverse prev

/-- PhiBackwardForRange::operator() (phi.h:283-289) on a non-empty range, after the split -/
def backRange (F : RangePhi R) (runs : List R) (prev : Nat) : Option (List Nat) := do
  let (l, _) ← F.backRuns 0 (F.backCompute (F.samplingSize + 1) 1) runs.reverse prev
  return l

/-- the inner `while (!empty(run) && valid)` (phi.h:611-617, 718-723): reports, the run left, value and validity -/
def reportValid (F : RangePhi R) : Nat → R → Nat → Bool → Option (List Nat × R × Nat × Bool)
  | fuel, run, value, valid =>
    if F.isRunEmpty run || !valid then some ([], run, value, valid)
    else match fuel with
      | 0 => none
      | fuel + 1 => do
        let run ← F.updateRun run
        let (v, ok) ← F.phi value
        let (l, e) ← reportValid F fuel run v ok
        return (value :: l, e)

/-- the outer `do … while (valid)` of one run (phi.h:608-630, 715-731). `toValue` turns a sample into the value it stands for. -/
def runValid (F : RangePhi R) (toValue : Nat → Option Nat) : Nat → R → Nat → Bool → Option (List Nat × R × Nat × Bool)
  | 0, _, _, _ => none
  | fuel + 1, run, value, valid => do
    let (l, run, value, valid) ← F.reportValid F.seqSize run value valid
    if F.isRunEmpty run then return (l, run, value, valid)
    else do
      let sample ← F.getSample run
      match sample with
      | some x => do
        let v ← toValue x
        let (l2, e) ← runValid F toValue fuel run v true
        return (l ++ l2, e)
      | none =>
        if valid then do
          let (l2, e) ← runValid F toValue fuel run value valid
          return (l ++ l2, e)
        else return (l, run, value, valid)

/-- `do { report(value); update(run); value = phi(value) } while (!empty(run))` (phi.h:645-651, 702-707) -/
def phiWhileV (F : RangePhi R) : Nat → R → Nat → Option (List Nat × Nat × Bool)
  | 0, _, _ => none
  | fuel + 1, run, value => do
    let run ← F.updateRun run
    let (v, ok) ← F.phi value
    if F.isRunEmpty run then return ([value], v, ok)
    else do
      let (l, e) ← phiWhileV F fuel run v
      return (value :: l, e)

/-- PhiBackwardForRangeWithValidity::computeForRuns (phi.h:601-640) -/
def backRunsV (F : RangePhi R) (level : Nat) (next : R → Nat → Bool → Option (List Nat × Nat × Bool)) :
    List R → Nat → Bool → Option (List Nat × Nat × Bool)
  | [], value, valid => some ([], value, valid)
  | run :: rest, value, valid => do
    let (rep, run, value, valid) ← F.runValid (fun x => cmod (x + 1 + level) F.seqSize) (F.seqSize + 2) run value valid
    let (rep2, value, valid) ← (if F.isRunEmpty run then return ([], value, valid)
      else do
        let nr ← F.navigate run
        next nr value valid)
    let (rep3, e) ← backRunsV F level next rest value valid
    return (rep ++ rep2 ++ rep3, e)

/-- PhiBackwardForRangeWithValidity::compute (phi.h:642-660) -/
def backComputeV (F : RangePhi R) : Nat → Nat → R → Nat → Bool → Option (List Nat × Nat × Bool)
  | 0, _, _, _, _ => none
  | depth + 1, level, run, value, valid =>
    if F.samplingSize ≤ level then F.phiWhileV F.seqSize run value
    else do
      let runs ← F.splitRun run
      F.backRunsV level (backComputeV F depth (level + 1)) runs.reverse value valid

/-- PhiBackwardForRangeWithValidity::operator() (phi.h:590-599) on a non-empty range; `runs` is its split -/
def backRangeV (F : RangePhi R) (runs : Option (List R)) (prev : Nat) : Option (List Nat) := do
  let (value, valid) ← F.phi prev
  let runs ← runs
  let (l, _) ← F.backRunsV 0 (F.backComputeV (F.samplingSize + 1) 1) runs.reverse value valid
  return l

/-- PhiForwardForRange::compute (phi.h:416-445). The first argument bounds the recursion depth. -/
def forwCompute (F : RangePhi R) : Nat → Nat → R → Nat → Option (List Nat × Nat)
  | 0, _, _, _ => none
  | depth + 1, level, run, prev =>
    if F.samplingSize < level then F.phiWhile F.seqSize run prev
    else do
      let sample ← F.getSample run
      let (rep, prev, run) ← (match sample with
        | some x => do
          let y ← csub (x + 1 + F.seqSize) level
          let v ← cmod (y + 1) F.seqSize
          let run ← F.updateRun run
          return ([v], v, run)
        | none => return ([], prev, run))
      if F.isRunEmpty run then return (rep, prev)
      else do
        let runs ← F.splitRun run
        let (rep2, prev) ← runs.foldlM (fun (acc : List Nat × Nat) r => do
          let (l, p) ← forwCompute F depth (level + 1) r acc.2
          return (acc.1 ++ l, p)) ([], prev)
        return (rep ++ rep2, prev)

/-- PhiForwardForRange::operator() (phi.h:405-414) on a non-empty range, after the split -/
def forwRange (F : RangePhi R) (runs : List R) (prev : Nat) : Option (List Nat) := do
  let (l, _) ← runs.foldlM (fun (acc : List Nat × Nat) r => do
    let (l, p) ← F.forwCompute (F.samplingSize + 1) 1 r acc.2
    return (acc.1 ++ l, p)) ([], prev)
  return l

/-- PhiForwardForRangeWithValidity::compute (phi.h:699-740) -/
def forwComputeV (F : RangePhi R) : Nat → Nat → R → Nat → Bool → Option (List Nat × Nat × Bool)
  | 0, _, _, _, _ => none
  | depth + 1, level, run, value, valid =>
    if F.samplingSize < level then F.phiWhileV F.seqSize run value
    else do
      let (rep, run, value, valid) ← F.runValid
        (fun x => do
          let y ← csub (x + 1 + F.seqSize) level
          cmod (y + 1) F.seqSize) (F.seqSize + 2) run value valid
      if F.isRunEmpty run then return (rep, value, valid)
      else do
        let runs ← F.splitRun run
        let (rep2, value, valid) ← runs.foldlM (fun (acc : List Nat × Nat × Bool) r => do
          let (l, e) ← forwComputeV F depth (level + 1) r acc.2.1 acc.2.2
          return (acc.1 ++ l, e)) ([], value, valid)
        return (rep ++ rep2, value, valid)

/-- PhiForwardForRangeWithValidity::operator() (phi.h:689-697) on a non-empty range; `runs` is its split -/
def forwRangeV (F : RangePhi R) (runs : Option (List R)) (prev : Nat) : Option (List Nat) := do
  let (value, valid) ← F.phi prev
  let runs ← runs
  let (l, _) ← runs.foldlM (fun (acc : List Nat × Nat × Bool) r => do
    let (l, e) ← F.forwComputeV (F.samplingSize + 1) 1 r acc.2.1 acc.2.2
    return (acc.1 ++ l, e)) ([], value, valid)
  return l

end RangePhi
end Sri

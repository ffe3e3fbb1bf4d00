import Verif.Model.AllIndexes
import Verif.Model.IntCounters
import Verif.Model.WordCores
/-! # The queries in 64-bit machine arithmetic

The other models of the queries compute with natural numbers, take a subtraction that would go below zero for a fault, and write a few
expressions whose intermediate values wrap around as the number they end up with. Here every `+`, `-`, `*`, `++` and `--` of the query code
is the operation of a `std::size_t`: modulo 2^64, in the order of evaluation of the C++ expression, with no fault on wrap-around. The names
are those of the models with natural numbers followed by `64`; the run-length string and the psi core are those of Model/WordCores.lean. The bit
vectors are the same as there, and so is what construction stores. -/
namespace Sri
set_option autoImplicit false

/-- CircularPredecessor::operator() (sequence_ops.h:33-38) -/
def circularPredecessor64 (rank select : Nat → Option Nat) (size : Nat) (i : Nat) : Option (Nat × Nat) := do
  let ones ← rank size
  let r ← rank i
  let order ← cmod (wsub (add64 r ones) 1) ones
  let value ← select (add64 order 1)
  return (order, value)

/-- CircularSoftSuccessor::operator() (sequence_ops.h:71-76) -/
def circularSoftSuccessor64 (rank select : Nat → Option Nat) (size : Nat) (i : Nat) : Option (Nat × Nat) := do
  let ones ← rank size
  let r ← rank i
  let order ← cmod r ones
  let value ← select (add64 order 1)
  return (order, value)

/-- PhiBackward::operator() (phi.h:98-112) -/
def phiBackward64 (pred : Nat → Option (Nat × Nat)) (getSample : Nat → Nat → Option (Nat × Bool)) (n prev : Nat) :
    Option (Nat × Bool) := do
  assertC (decide (prev ≠ wsub n 1))
  let (pos, related) ← pred prev
  let delta := if related < prev then wsub prev related else add64 prev 1
  let (sample, ok) ← getSample pos delta
  let value ← cmod (add64 sample delta) n
  return (value, ok)

/-- PhiForward::operator() (phi.h:149-161): `(t_sample + size - t_delta) % size` -/
def phiForward64 (succ : Nat → Option (Nat × Nat)) (getSample : Nat → Nat → Option (Nat × Bool)) (n prev : Nat) :
    Option (Nat × Bool) := do
  let (pos, related) ← succ prev
  let delta := wsub related prev
  let (sample, ok) ← getSample pos delta
  let value ← cmod (wsub (add64 sample n) delta) n
  return (value, ok)

/-- ComputeToehold::operator() (toehold.h:123-127): `(get_sa_value_(run_data) + n_ - n_steps - 1) % n_` -/
def computeToehold64 {β : Type} (getSAValue : β → Option Nat) (n : Nat) (data : StepData β) : Option Nat := do
  let v ← getSAValue data.run
  cmod (wsub (wsub (add64 v n) data.step) 1) n

/-- the loop of ComputeSAValue::operator() (tools.h:325-334) with its counter `n_jumps` -/
def findSample64 {β : Type} (getSample : β → Option (Option Nat)) (navigate : β → Option β) : Nat → β → Nat → Option (Nat × Nat)
  | 0, _, _ => none
  | fuel + 1, d, jumps => do
    let s ← getSample d
    match s with
    | some x => return (x, jumps)
    | none => do
      let d ← navigate d
      findSample64 getSample navigate fuel d (add64 jumps 1)

/-- ComputeSAValue::operator() (tools.h:325-338): `(*sample + 1 + seq_size_ + (is_backward_nav_ ? 1 : -1) * n_jumps) % seq_size_`; the `int` -1
    becomes the word 2^64 - 1 -/
def saValue64 {β : Type} (backward : Bool) (getSample : β → Option (Option Nat)) (navigate : β → Option β) (fuel n : Nat) (d : β) :
    Option Nat := do
  let (x, j) ← findSample64 getSample navigate fuel d 0
  cmod (add64 (add64 (add64 x 1) n) (mul64 (if backward then 1 else W64 - 1) j)) n

namespace RangePhi
variable {R : Type}

/-- the value of a sample met on the way backwards: `(*sample + 1 + t_level) % seq_size_` (phi.h:298, 618) -/
def backValue64 (F : RangePhi R) (level x : Nat) : Option Nat := cmod (add64 (add64 x 1) level) F.seqSize

/-- the value of a sample met on the way forwards: `(*sample + 1 + seq_size_ - t_level + 1) % seq_size_` (phi.h:429, 727) -/
def forwValue64 (F : RangePhi R) (level x : Nat) : Option Nat :=
  cmod (add64 (wsub (add64 (add64 x 1) F.seqSize) level) 1) F.seqSize

/-- PhiBackwardForRange::computeForRuns (phi.h:291-309) -/
def backRuns64 (F : RangePhi R) (level : Nat) (next : R → Nat → Option (List Nat × Nat)) : List R → Nat → Option (List Nat × Nat)
  | [], prev => some ([], prev)
  | run :: rest, prev => do
    let sample ← F.getSample run
    let (rep, prev, run) ← (match sample with
      | some x => do
        let v ← F.backValue64 level x
        let run ← F.updateRun run
        return ([v], v, run)
      | none => return ([], prev, run))
    let (rep2, prev) ← (if F.isRunEmpty run then return ([], prev)
      else do
        let nr ← F.navigate run
        next nr prev)
    let (rep3, prev) ← backRuns64 F level next rest prev
    return (rep ++ rep2 ++ rep3, prev)

/-- PhiBackwardForRange::compute (phi.h:312-327) -/
def backCompute64 (F : RangePhi R) : Nat → Nat → R → Nat → Option (List Nat × Nat)
  | 0, _, _, _ => none
  | depth + 1, level, run, prev =>
    if F.samplingSize ≤ level then F.phiWhile F.seqSize run prev
    else do
      let runs ← F.splitRun run
      F.backRuns64 level (backCompute64 F depth (add64 level 1)) runs.reverse prev

/-- PhiBackwardForRange::operator() (phi.h:283-289) on a non-empty range, after the split -/
def backRange64 (F : RangePhi R) (runs : List R) (prev : Nat) : Option (List Nat) := do
  let (l, _) ← F.backRuns64 0 (F.backCompute64 (F.samplingSize + 1) (add64 0 1)) runs.reverse prev
  return l

/-- PhiBackwardForRangeWithValidity::computeForRuns (phi.h:599-629) -/
def backRunsV64 (F : RangePhi R) (level : Nat) (next : R → Nat → Bool → Option (List Nat × Nat × Bool)) :
    List R → Nat → Bool → Option (List Nat × Nat × Bool)
  | [], value, valid => some ([], value, valid)
  | run :: rest, value, valid => do
    let (rep, run, value, valid) ← F.runValid (F.backValue64 level) (F.seqSize + 2) run value valid
    let (rep2, value, valid) ← (if F.isRunEmpty run then return ([], value, valid)
      else do
        let nr ← F.navigate run
        next nr value valid)
    let (rep3, e) ← backRunsV64 F level next rest value valid
    return (rep ++ rep2 ++ rep3, e)

/-- PhiBackwardForRangeWithValidity::compute (phi.h:632-647) -/
def backComputeV64 (F : RangePhi R) : Nat → Nat → R → Nat → Bool → Option (List Nat × Nat × Bool)
  | 0, _, _, _, _ => none
  | depth + 1, level, run, value, valid =>
    if F.samplingSize ≤ level then F.phiWhileV F.seqSize run value
    else do
      let runs ← F.splitRun run
      F.backRunsV64 level (backComputeV64 F depth (add64 level 1)) runs.reverse value valid

/-- PhiBackwardForRangeWithValidity::operator() (phi.h:588-597) on a non-empty range; `runs` is its split -/
def backRangeV64 (F : RangePhi R) (runs : Option (List R)) (prev : Nat) : Option (List Nat) := do
  let (value, valid) ← F.phi prev
  let runs ← runs
  let (l, _) ← F.backRunsV64 0 (F.backComputeV64 (F.samplingSize + 1) (add64 0 1)) runs.reverse value valid
  return l

/-- PhiForwardForRange::compute (phi.h:414-443) -/
def forwCompute64 (F : RangePhi R) : Nat → Nat → R → Nat → Option (List Nat × Nat)
  | 0, _, _, _ => none
  | depth + 1, level, run, prev =>
    if F.samplingSize < level then F.phiWhile F.seqSize run prev
    else do
      let sample ← F.getSample run
      let (rep, prev, run) ← (match sample with
        | some x => do
          let v ← F.forwValue64 level x
          let run ← F.updateRun run
          return ([v], v, run)
        | none => return ([], prev, run))
      if F.isRunEmpty run then return (rep, prev)
      else do
        let runs ← F.splitRun run
        let (rep2, prev) ← runs.foldlM (fun (acc : List Nat × Nat) r => do
          let (l, p) ← forwCompute64 F depth (add64 level 1) r acc.2
          return (acc.1 ++ l, p)) ([], prev)
        return (rep ++ rep2, prev)

/-- PhiForwardForRange::operator() (phi.h:403-412) on a non-empty range, after the split -/
def forwRange64 (F : RangePhi R) (runs : List R) (prev : Nat) : Option (List Nat) := do
  let (l, _) ← runs.foldlM (fun (acc : List Nat × Nat) r => do
    let (l, p) ← F.forwCompute64 (F.samplingSize + 1) 1 r acc.2
    return (acc.1 ++ l, p)) ([], prev)
  return l

/-- PhiForwardForRangeWithValidity::compute (phi.h:700-738) -/
def forwComputeV64 (F : RangePhi R) : Nat → Nat → R → Nat → Bool → Option (List Nat × Nat × Bool)
  | 0, _, _, _, _ => none
  | depth + 1, level, run, value, valid =>
    if F.samplingSize < level then F.phiWhileV F.seqSize run value
    else do
      let (rep, run, value, valid) ← F.runValid (F.forwValue64 level) (F.seqSize + 2) run value valid
      if F.isRunEmpty run then return (rep, value, valid)
      else do
        let runs ← F.splitRun run
        let (rep2, value, valid) ← runs.foldlM (fun (acc : List Nat × Nat × Bool) r => do
          let (l, e) ← forwComputeV64 F depth (add64 level 1) r acc.2.1 acc.2.2
          return (acc.1 ++ l, e)) ([], value, valid)
        return (rep ++ rep2, value, valid)

/-- PhiForwardForRangeWithValidity::operator() (phi.h:689-698) on a non-empty range; `runs` is its split -/
def forwRangeV64 (F : RangePhi R) (runs : Option (List R)) (prev : Nat) : Option (List Nat) := do
  let (value, valid) ← F.phi prev
  let runs ← runs
  let (l, _) ← runs.foldlM (fun (acc : List Nat × Nat × Bool) r => do
    let (l, e) ← F.forwComputeV64 (F.samplingSize + 1) 1 r acc.2.1 acc.2.2
    return (acc.1 ++ l, e)) ([], value, valid)
  return l

end RangePhi

namespace RIndex

/-- constructLF (r_index.h:158-182) with lf (lf.h:25-44): the call passes `tt_range.end - 1`; create_range does `value += smaller_c` and
    `value += smaller_c - !is_cover + 1` -/
def lf64 (I : RIndex) (range : Range) (c : Nat) : Option RangeLF := do
  let s ← I.bwtRle.rankReport64 range.start c
  let e ← I.bwtRle.rankReport64 (wsub range.stop 1) c
  let smaller ← I.alphabet.C[c]?
  return { start := { value := add64 s.1 smaller, rank := s.2.1, cover := s.2.2 },
           stop := { value := add64 e.1 (add64 (wsub smaller (if e.2.2 then 0 else 1)) 1), rank := e.2.1, cover := e.2.2 } }

/-- get_sa_value_for_run_data (r_index.h:217-220) -/
def saValueOfRun64 (I : RIndex) (d : RunData) : Option Nat := do
  let run ← I.bwtRle.selectOnRuns d.lastRunRnk d.c
  let s ← I.samples[run]?
  return add64 s 1

/-- predecessor structure of the marks (r_index.h:241) -/
def predecessor64 (I : RIndex) (v : Nat) : Option (Nat × Nat) :=
  circularPredecessor64 (bvRank I.marks) (bvSelect I.marks) I.n v

/-- constructPhi (r_index.h:231-247) given how a mark is linked to a sample and how the sample is validated -/
def phiWith64 (I : RIndex) (getIdx : Nat → Option (Nat × Bool)) (valid : Nat → Nat → Bool → Option Bool) (v : Nat) : Option (Nat × Bool) :=
  phiBackward64 I.predecessor64 (getSampleForPhi getIdx (fun k => I.samples[k]?) valid) I.n v

/-- phi of RIndex and SrIndex (r_index.h:250, sr_index.h:220), default validity `true` -/
def phi64 (I : RIndex) (v : Nat) : Option (Nat × Bool) :=
  I.phiWith64 (fun i => (I.markToSample[i]?).map (fun k => (k, true))) validatorDefault v

/-- update_range: `--end` (r_index.h:266-270) -/
def shrink64 (range : Range) : Option Range := some { range with stop := wsub range.stop 1 }

/-- constructIndex (r_index.h:103-114); phi_for_range (r_index.h:251-258) calls phi once per position of `[start, end)` -/
def functors64 (I : RIndex) : Functors Range RangeLF (StepData RunData) where
  lf := I.lf64
  toRange := toRange
  update := updateToehold lfTrivial createData
  computeAll := computeAllValues (fun range k => phiLoop I.phi64 (range.stop - range.start) k) (computeToehold64 I.saValueOfRun64 I.bwtRle.size) shrink64
  bwtSize := I.n
  initial := fun _ => { step := 0, run := { c := 0, lastRunRnk := 0 } }
  getSymbol := I.alphabet.char2comp
  fullRange := fun n => { start := 0, stop := n }
  isEmpty := fun r => !decide (r.start < r.stop)
  bounds := fun r => (r.start, r.stop)

end RIndex

namespace SrIndex

/-- constructCreateDataBackwardSearchStep (sr_index.h:120-125): `next_end.value - 1` wraps when the end is 0 -/
def createData64 (_ : Range) (c : Nat) (next : RangeLF) (step : Nat) : Option (StepData RunDataExt) :=
  some { step := step, run := { c := c, lastRunRnk := next.stop.rank, isRunEnd := true, nextPos := wsub next.stop.value 1 } }

/-- lf_run_data (sr_index.h:148-160): `next_pos == run_end - 1`, `C[c] + rnk` -/
def lfData64 (I : SrIndex) (d : RunDataExt) : Option RunDataExt := do
  let (rnk, c, runRnk, _, stop, _) ← I.base.bwtRle.rankAt64 d.nextPos
  let smaller ← I.base.alphabet.C[c]?
  return { c := c, lastRunRnk := runRnk, isRunEnd := decide (d.nextPos = wsub stop 1), nextPos := add64 smaller rnk }

/-- compute_sa_value_for_run_data (sr_index.h:162-166) -/
def saValueOfRun64 (I : SrIndex) (d : RunDataExt) : Option Nat := do
  let run ← I.base.bwtRle.selectOnRuns d.lastRunRnk d.c
  saValue64 true I.getSampleData I.lfData64 (I.base.n + 1) I.base.n { d with lastRunRnk := run }

/-- constructSplitInBWTRuns (sr_index.h:183-195) -/
def split64 (I : SrIndex) (first last : Nat) : Option (List PhiRun) := do
  let l ← I.base.bwtRle.splitInRuns64 first last
  let runs := l.map (fun r => ({ start := r.start, stop := r.stop, c := r.c, rnk := r.rnk, isRunEnd := decide (r.stop ≤ last) } : PhiRun))
  match runs with
  | [] => none
  | f :: rest => return setBackStop last ({ f with start := first } :: rest)

/-- constructLFForPhi (sr_index.h:197-217) -/
def lfForPhi64 (I : SrIndex) (run : PhiRun) : Option PhiRun := do
  let a ← I.base.bwtRle.rank64 run.start run.c
  let b ← I.base.bwtRle.rank64 run.stop run.c
  let smaller ← I.base.alphabet.C[run.c]?
  return { start := add64 a smaller, stop := add64 b smaller, c := 0, rnk := 0, isRunEnd := false }

/-- update_run: `--tt_run.end` (sr_index.h:230-233, 329-332) -/
def updateRun64 (run : PhiRun) : Option PhiRun := some { run with stop := wsub run.stop 1, isRunEnd := false }

/-- the functors handed to PhiBackwardForRange (sr_index.h:219-245) and to the validity version (sr_index.h:319-345) -/
def rangePhi64 (I : SrIndex) (phi : Nat → Option (Nat × Bool)) : RangePhi PhiRun where
  phi := phi
  getSample := I.getSampleRun
  splitRun := fun run => I.split64 run.start run.stop
  navigate := I.lfForPhi64
  samplingSize := I.s
  seqSize := I.base.n
  updateRun := updateRun64
  isRunEmpty := fun run => !decide (run.start < run.stop)

/-- constructPhiForRange (sr_index.h:219-245) with PhiBackwardForRange::operator() (phi.h:283-289) -/
def phiForRange64 (I : SrIndex) (range : Range) (k : Nat) : Option (List Nat) :=
  if range.start < range.stop then do
    let runs ← I.split64 range.start range.stop
    (I.rangePhi64 I.base.phi64).backRange64 runs k
  else some []

/-- constructIndex (sr_index.h:93-104), given the functor for the rest of the range -/
def functorsWith64 (I : SrIndex) (phiForRange : Range → Nat → Option (List Nat)) : Functors Range RangeLF (StepData RunDataExt) where
  lf := I.base.lf64
  toRange := RIndex.toRange
  update := updateToehold RIndex.lfTrivial createData64
  computeAll := computeAllValues phiForRange (computeToehold64 I.saValueOfRun64 I.base.bwtRle.size) RIndex.shrink64
  bwtSize := I.base.n
  initial := fun _ => { step := 0, run := { c := 0, lastRunRnk := 0, isRunEnd := false, nextPos := 0 } }
  getSymbol := I.base.alphabet.char2comp
  fullRange := fun n => { start := 0, stop := n }
  isEmpty := fun r => !decide (r.start < r.stop)
  bounds := fun r => (r.start, r.stop)

end SrIndex

namespace SrIndexValid

/-- the link of a mark paired with its validity bit (sr_index.h:300-315, 411-425) -/
def linkBit (links : List Nat) (bits : List Bool) (i : Nat) : Option (Nat × Bool) := do
  let k ← links[i]?
  let b ← bits[i]?
  return (k, b)

/-- phi of SrIndexValidMark (sr_index.h:300-315) -/
def phiMark64 (I : SrIndexValid) (v : Nat) : Option (Nat × Bool) :=
  I.sr.base.phiWith64 (linkBit I.sr.base.markToSample I.validMarks) validatorDefault v

/-- phi of SrIndexValidArea (sr_index.h:411-440) -/
def phiArea64 (I : SrIndexValid) (v : Nat) : Option (Nat × Bool) :=
  I.sr.base.phiWith64 (linkBit I.sr.base.markToSample I.validMarks)
    (validatorArea (rank0 I.validMarks) (fun k => I.validAreas[k]?)) v

/-- constructPhiForRange (sr_index.h:319-345) with PhiBackwardForRangeWithValidity::operator() (phi.h:588-597) -/
def phiForRange64 (I : SrIndexValid) (phi : Nat → Option (Nat × Bool)) (range : Range) (k : Nat) : Option (List Nat) :=
  if range.start < range.stop then
    (I.sr.rangePhi64 phi).backRangeV64 (I.sr.split64 range.start range.stop) k
  else some []

end SrIndexValid

namespace PsiNav

/-- psi_rank of constructLF (r_csa.h:166-174) -/
def psiRank64 (N : PsiNav) (c v : Nat) : Option DataRunLF := do
  let (rank, s, e, k) ← N.psi.rankReport64 c v
  return { value := rank, rstart := s, rstop := e, rank := k }

/-- constructLF (r_csa.h:160-185): create_range does `value += smaller_c` on both ends -/
def lf64 (N : PsiNav) (range : Range) (c : Nat) : Option RangeRunLF := do
  let s ← N.psiRank64 c range.start
  let e ← N.psiRank64 c range.stop
  let smaller ← N.alphabet.C[c]?
  return { start := { s with value := add64 s.value smaller }, stop := { e with value := add64 e.value smaller } }

end PsiNav

/-- `t_index - cumulative_c_[c] + 1` (psi.h:746) with the symbol of the index (psi.h:725-729) -/
def symbolRank64 (C : List Nat) (i : Nat) : Option (Nat × Nat) := do
  let c ← computeCForSAIndex C i
  let b ← C[c]?
  return (c, add64 (wsub i b) 1)

namespace RCSA

/-- successor structure of the marks (r_csa.h:201, 559, sr_csa.h:126) -/
def successor64 (I : RCSA) (v : Nat) : Option (Nat × Nat) :=
  circularSoftSuccessor64 (bvRank I.marks) (bvSelect I.marks) I.n v

/-- phi (r_csa.h:198-210, 556-568, sr_csa.h:123-136), given how a mark is linked to a sample and how the sample is validated -/
def phiWith64 (I : RCSA) (getIdx : Nat → Option (Nat × Bool)) (valid : Nat → Nat → Bool → Option Bool) (v : Nat) : Option (Nat × Bool) :=
  phiForward64 I.successor64 (getSampleForPhi getIdx (fun k => I.samples[k]?) valid) I.n v

/-- phi of the r-CSAs (r_csa.h:198-210, 556-568), default validity `true` -/
def phi64 (I : RCSA) (v : Nat) : Option (Nat × Bool) :=
  I.phiWith64 (fun i => (I.markToSample[i]?).map (fun k => (k, true))) validatorDefault v

/-- update_range: `++start` (r_csa.h:238-242, 596-600) -/
def shrink64 (range : Range) : Option Range := some { range with start := add64 range.start 1 }

/-- constructIndex of both classes (r_csa.h:103-118, 459-475) -/
def functorsWith64 {β : Type} (I : RCSA) (create : Range → Nat → RangeRunLF → Nat → Option (StepData β)) (init : StepData β)
    (saValueOfRun : β → Option Nat) : Functors Range RangeRunLF (StepData β) where
  lf := I.lf64
  toRange := PsiNav.toRange
  update := updateToehold PsiNav.lfTrivial create
  computeAll := computeAllValues (fun range k => phiLoop I.phi64 (range.stop - range.start) k) (computeToehold64 saValueOfRun I.psi.n) shrink64
  bwtSize := I.n
  initial := fun _ => init
  getSymbol := I.alphabet.char2comp
  fullRange := fun n => { start := 0, stop := n }
  isEmpty := fun r => !decide (r.start < r.stop)
  bounds := fun r => (r.start, r.stop)

end RCSA

namespace RCSABwt

/-- get_sa_value_for_bwt_run_start (r_csa.h:227-230) -/
def saValueOfRun64 (I : RCSA) (pos : Nat) : Option Nat := do
  let run ← I.psi.rankRun64 pos
  let s ← I.samples[run]?
  return add64 s 1

/-- RCSAWithBWTRun::constructIndex (r_csa.h:103-118) -/
def functors64 (I : RCSA) : Functors Range RangeRunLF (StepData Nat) :=
  I.functorsWith64 createData { step := 0, run := 0 } (saValueOfRun64 I)

end RCSABwt

namespace RCSAPsi

/-- get_sa_value_for_bwt_run_start (r_csa.h:585-588): `samples[n_prev_runs + partial_rank] + 1` -/
def saValueOfRun64 (I : RCSA) (d : PsiRunData) : Option Nat := do
  let prev ← I.psi.rankCharRun64 d.c
  let s ← I.samples[add64 prev d.partialRank]?
  return add64 s 1

/-- RCSAWithPsiRun::constructIndex (r_csa.h:459-475) -/
def functors64 (I : RCSA) : Functors Range RangeRunLF (StepData PsiRunData) :=
  I.functorsWith64 createData { step := 0, run := { c := 0, partialRank := 0 } } (saValueOfRun64 I)

end RCSAPsi

namespace SrCSA

/-- `while (cum_next_c < last)` (sr_csa.h:101-107, sr_csa_psi.h:264-270) -/
def splitRunLoop64 (I : SrCSA) (last : Nat) : Nat → Nat → Nat → Option (List FRun)
  | 0, _, _ => none
  | f + 1, c, cumNext =>
    if cumNext < last then do
      let c := add64 c 1
      let cum := cumNext
      let cumNext ← I.alphabet.C[add64 c 1]?
      let l ← I.psi.computeForwardRuns64 c 1 (add64 (wsub (min last cumNext) cum) 1)
      let rest ← splitRunLoop64 I last f c cumNext
      return l.map createRun ++ rest
    else some []

/-- constructSplitRunInBWTRuns (sr_csa.h:79-110, sr_csa_psi.h:241-275) -/
def splitRun64 (I : SrCSA) (run : FRun) : Option (List FRun) := do
  let c ← computeCForSAIndex I.alphabet.C run.start
  let cum ← I.alphabet.C[c]?
  let cumNext ← I.alphabet.C[add64 c 1]?
  let l ← I.psi.computeForwardRuns64 c (add64 (wsub run.start cum) 1) (add64 (wsub (min run.stop cumNext) cum) 1)
  let rest ← I.splitRunLoop64 run.stop (I.alphabet.C.length + 1) c cumNext
  return l.map createRun ++ rest

/-- update_run: `++tt_run.start` (sr_csa.h:317-322, 500-502, sr_csa_psi.h:184-189) -/
def updateRun64 (run : FRun) : Option FRun := some { run with start := add64 run.start 1, isRunStart := false }

/-- phi (sr_csa.h:123-136, sr_csa_psi.h:195-211) -/
def phi64 (I : SrCSA) (v : Nat) : Option (Nat × Bool) :=
  I.phiWith64 (fun i => (I.markToSample[i]?).map (fun k => (k, false))) validatorDefault v

/-- the functors handed to PhiForwardForRange and its validity version (sr_csa.h:136-145, sr_csa_psi.h:300-310) -/
def rangePhi64 (I : SrCSA) (O : ForwOps) (phi : Nat → Option (Nat × Bool)) : RangePhi FRun where
  phi := phi
  getSample := O.getSampleRun
  splitRun := I.splitRun64
  navigate := fun _ => none
  samplingSize := I.s
  seqSize := I.n
  updateRun := updateRun64
  isRunEmpty := fun run => !decide (run.start < run.stop)

/-- PhiForwardForRange::operator() (phi.h:403-412) -/
def phiForRange64 (I : SrCSA) (O : ForwOps) (range : Range) (k : Nat) : Option (List Nat) :=
  if range.start < range.stop then do
    let runs ← O.splitRange range.start range.stop
    (I.rangePhi64 O I.phi64).forwRange64 runs k
  else some []

/-- constructIndex (sr_csa.h:239-263, 449-476, sr_csa_psi.h:97-119) with constructComputeToehold (sr_csa.h:150-154, sr_csa_psi.h:128-134) -/
def functorsWith64 (I : SrCSA) (O : ForwOps) (phiForRange : Range → Nat → Option (List Nat)) : Functors Range RangeRunLF (StepData FData) where
  lf := I.lf64
  toRange := PsiNav.toRange
  update := updateToehold PsiNav.lfTrivial O.create
  computeAll := computeAllValues phiForRange
    (computeToehold64 (saValue64 false O.getSampleData O.psiData (I.n + 2) I.n) I.n) RCSA.shrink64
  bwtSize := I.n
  initial := fun _ => { step := 0, run := { pos := 0, c := 0, rank := 0, isRunStart := false } }
  getSymbol := I.alphabet.char2comp
  fullRange := fun n => { start := 0, stop := n }
  isEmpty := fun r => !decide (r.start < r.stop)
  bounds := fun r => (r.start, r.stop)

/-- get_sample of SrCSASlim and SrCSAWithPsiRun (sr_csa.h:283-293, sr_csa_psi.h:143-159): `idx = cc + partial_rank`; `tt_char - 1` is computed
    only for a positive character -/
def getSampleIdx64 (I : SrCSA) (c rank : Nat) (isRunStart : Bool) : Option (Option Nat) :=
  if !isRunStart then some none
  else do
    let cc ← (if 0 < c then I.cumRuns[wsub c 1]? else some 0)
    let idx := add64 cc rank
    let b ← I.samplesIdx[idx]?
    if !b then return none
    else do
      let k ← bvRank I.samplesIdx idx
      let v ← I.samples[k]?
      return some v

/-- psi over run data of SrCSASlim and SrCSAWithPsiRun (sr_csa.h:358-376, sr_csa_psi.h:277-298) -/
def psiData64 (I : SrCSA) (d : FData) : Option FData := do
  let (c, k) ← symbolRank64 I.alphabet.C d.pos
  let (pos, start, _, rank) ← I.psi.selectReport64 c k
  return { pos := pos, c := c, rank := rank, isRunStart := decide (pos = start) }

/-- SrCSASlim (sr_csa.h:168-377) and SrCSAWithPsiRun (sr_csa_psi.h:14-314) -/
def slimOps64 (I : SrCSA) : ForwOps where
  getSampleRun := fun r => I.getSampleIdx64 r.c r.rank r.isRunStart
  getSampleData := fun d => I.getSampleIdx64 d.c d.rank d.isRunStart
  splitRange := fun first last => do
    let l ← I.psi.splitInSortedRuns64 first last
    return l.map createRun
  psiData := I.psiData64
  create := createIdx

/-- constructSplitRangeInBWTRuns of SrCSA (sr_csa.h:516-543) with its `int` counter: `rank(first + 1) + 1` -/
def cutRange64 (I : SrCSA) (first last : Nat) : Option (List FRun) := do
  let a ← bvRank I.samplesIdx (add64 first 1)
  let b ← bvRank I.samplesIdx last
  let i ← toInt (add64 a 1)
  cutLoopInt I last (b - a) i first

/-- psi over run data of SrCSA (sr_csa.h:548-562) -/
def psiPos64 (I : SrCSA) (d : FData) : Option FData := do
  let (c, k) ← symbolRank64 I.alphabet.C d.pos
  let p ← I.psi.select64 c k
  return { d with pos := p }

/-- SrCSA (sr_csa.h:386-563) -/
def posOps64 (I : SrCSA) : ForwOps where
  getSampleRun := fun r => I.getSamplePos r.start
  getSampleData := fun d => I.getSamplePos d.pos
  splitRange := I.cutRange64
  psiData := I.psiPos64
  create := createPos

end SrCSA

namespace SrCSAValid

/-- phi of the ValidMark classes (sr_csa.h:637-650, sr_csa_psi.h:372-390) -/
def phiMark64 (I : SrCSAValid) (v : Nat) : Option (Nat × Bool) :=
  I.csa.phiWith64 (SrIndexValid.linkBit I.csa.markToSample I.validMarks) validatorDefault v

/-- phi of the ValidArea classes (sr_csa.h:720-743, sr_csa_psi.h:439-459) -/
def phiArea64 (I : SrCSAValid) (v : Nat) : Option (Nat × Bool) :=
  I.csa.phiWith64 (SrIndexValid.linkBit I.csa.markToSample I.validMarks)
    (validatorArea (SrIndexValid.rank0 I.validMarks) (fun k => I.validAreas[k]?)) v

/-- PhiForwardForRangeWithValidity::operator() (phi.h:689-698) -/
def phiForRange64 (I : SrCSAValid) (O : ForwOps) (phi : Nat → Option (Nat × Bool)) (range : Range) (k : Nat) : Option (List Nat) :=
  if range.start < range.stop then
    (I.csa.rangePhi64 O phi).forwRangeV64 (O.splitRange range.start range.stop) k
  else some []

end SrCSAValid

/-- the two queries over a set of functors (index_base.h:223-278) -/
def queries64 {ρ ν δ : Type} (F : Functors ρ ν δ) : Queries := ⟨F.count, F.locate⟩

/-- build an index as `buildIndex` does; its queries compute with machine words -/
def buildIndex64 (t : IndexType) (T sa : List Nat) (s : Nat) : Option Queries :=
  match t with
  | .rIndex => (RIndex.build T sa).map (fun I => queries64 I.functors64)
  | .srIndex => (SrIndex.build T sa s).map (fun I => queries64 (I.functorsWith64 I.phiForRange64))
  | .srIndexValidMark => (SrIndexValid.build T sa s).map (fun I => queries64 (I.sr.functorsWith64 (I.phiForRange64 I.phiMark64)))
  | .srIndexValidArea => (SrIndexValid.build T sa s).map (fun I => queries64 (I.sr.functorsWith64 (I.phiForRange64 I.phiArea64)))
  | .rcsaWithBWTRun => (RCSABwt.build T sa).map (fun I => queries64 (RCSABwt.functors64 I))
  | .rcsaWithPsiRun => (RCSAPsi.build T sa).map (fun I => queries64 (RCSAPsi.functors64 I))
  | .srCSA => (SrCSA.build T sa s).map (fun I => queries64 (I.functorsWith64 I.posOps64 (I.phiForRange64 I.posOps64)))
  | .srCSASlim => (SrCSA.buildSlim T sa s).map (fun I => queries64 (I.functorsWith64 I.slimOps64 (I.phiForRange64 I.slimOps64)))
  | .srCSAValidMark => (SrCSAValid.build T sa s).map (fun I => queries64 (I.csa.functorsWith64 I.csa.posOps64 (I.phiForRange64 I.csa.posOps64 I.phiMark64)))
  | .srCSAValidArea => (SrCSAValid.build T sa s).map (fun I => queries64 (I.csa.functorsWith64 I.csa.posOps64 (I.phiForRange64 I.csa.posOps64 I.phiArea64)))
  | .srCSASlimValidMark => (SrCSAValid.buildSlim T sa s).map (fun I => queries64 (I.csa.functorsWith64 I.csa.slimOps64 (I.phiForRange64 I.csa.slimOps64 I.phiMark64)))
  | .srCSASlimValidArea => (SrCSAValid.buildSlim T sa s).map (fun I => queries64 (I.csa.functorsWith64 I.csa.slimOps64 (I.phiForRange64 I.csa.slimOps64 I.phiArea64)))
  | .srCSAWithPsiRun => (SrCSA.buildPsi T sa s).map (fun I => queries64 (I.functorsWith64 I.slimOps64 (I.phiForRange64 I.slimOps64)))
  | .psiValidMark => (SrCSAValid.buildPsi T sa s).map (fun I => queries64 (I.csa.functorsWith64 I.csa.slimOps64 (I.phiForRange64 I.csa.slimOps64 I.phiMark64)))
  | .psiValidArea => (SrCSAValid.buildPsi T sa s).map (fun I => queries64 (I.csa.functorsWith64 I.csa.slimOps64 (I.phiForRange64 I.csa.slimOps64 I.phiArea64)))

end Sri

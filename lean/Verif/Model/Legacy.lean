import Verif.Spec
import Verif.Model.EncVector
import Verif.Model.SrIndex
import Verif.Model.Bwt
import Verif.Model.RleString
/-! # The functors over inclusive ranges (bwt.h, lf.h, phi.h, toehold.h, tools.h)

The library keeps a second set of functors, over inclusive ranges `[first, last]`, rle_string and an F array. test/phi_tests.cpp and
benchmark/factory.h show how they are put together into an index with `buildSharedPtrRIndex`. The items (samples, marks, links, validity)
are those the index classes of the library store. -/
namespace Sri
set_option autoImplicit false

/-- the functors of PhiBackwardForRangeWithValidityOriginal (phi.h:459-474, 540-548). `split` is SplitInRuns (tools.h:137-158), `lf` is
    LFOnBWT (bwt.h:96-127), `sampleAt` is GetSampleForSAPosition (tools.h:218-249). -/
structure ClosedPhi where
  phi : Nat → Option (Nat × Bool)
  split : Nat → Nat → Option (List RleString.StringRun)
  lf : Nat × Nat → Nat → Option (Nat × Nat)
  sampleAt : Nat → Option (Option Nat)
  samplingSize : Nat
  bwtSize : Nat

namespace ClosedPhi

/-- `do { report(v); v = phi(v); --last } while (first <= last)` (phi.h:494-504). `--last` at 0 wraps around, the loop then leaves the range:
    a fault. -/
def reportAll (F : ClosedPhi) : Nat → Nat → Nat → Nat → Option (List Nat × Nat × Bool)
  | 0, _, _, _ => none
  | fuel + 1, first, last, v => do
    let (w, ok) ← F.phi v
    let last ← csub last 1
    if first ≤ last then do
      let (l, e) ← reportAll F fuel first last w
      return (v :: l, e)
    else return ([v], w, ok)

/-- `while (first <= last && valid) { report(v); v = phi(v); --last }` (phi.h:508-514): the reports, `last`, value and validity after it -/
def reportValid (F : ClosedPhi) : Nat → Nat → Nat → Nat → Bool → Option (List Nat × Nat × Nat × Bool)
  | fuel, first, last, v, ok =>
    if last < first || !ok then some ([], last, v, ok)
    else match fuel with
      | 0 => none
      | fuel + 1 => do
        let (w, ok) ← F.phi v
        let last ← csub last 1
        let (l, e) ← reportValid F fuel first last w ok
        return (v :: l, e)

/-- `do { … } while (valid)` (phi.h:506-526) -/
def reportSampled (F : ClosedPhi) (jumps : Nat) : Nat → Nat → Nat → Nat → Bool → Option (List Nat × Nat × Nat × Bool)
  | 0, _, _, _, _ => none
  | fuel + 1, first, last, v, ok => do
    let (l, last, v, ok) ← F.reportValid (F.bwtSize + 1) first last v ok
    if last < first then return (l, last, v, ok)
    else do
      let sample ← F.sampleAt last
      match sample with
      | some x => do
        let v ← cmod (x + 1 + jumps) F.bwtSize
        let (l2, e) ← reportSampled F jumps fuel first last v true
        return (l ++ l2, e)
      | none =>
        if ok then do
          let (l2, e) ← reportSampled F jumps fuel first last v ok
          return (l ++ l2, e)
        else return (l, last, v, ok)

/-- the loop over the remaining runs, at the same level (phi.h:533-535); `again` is `compute(·, ·, jumps)` -/
def sameLevel (again : Nat × Nat → Nat → Bool → Option (List Nat × Nat × Bool)) :
    List RleString.StringRun → Nat → Bool → Option (List Nat × Nat × Bool)
  | [], v, ok => some ([], v, ok)
  | r :: rest, v, ok => do
    let (l, v, ok) ← again (r.first, r.last) v ok
    let (l2, e) ← sameLevel again rest v ok
    return (l ++ l2, e)

/-- compute (phi.h:482-538). The first argument bounds the depth of the recursion, the second is `t_n_jumps`. The value of an empty range is
    `{-1, false}`. -/
def compute (F : ClosedPhi) : Nat → Nat → Nat × Nat → Nat → Bool → Option (List Nat × Nat × Bool)
  | 0, _, _, _, _ => none
  | depth + 1, jumps, (first, last), v, ok =>
    if last < first then some ([], W64 - 1, false)
    else if F.samplingSize ≤ jumps then F.reportAll (F.bwtSize + 1) first last v
    else do
      let (l, last, v, ok) ← F.reportSampled jumps (F.bwtSize + 2) first last v ok
      if last < first then return (l, v, ok)
      else do
        let runs ← F.split first last
        match runs.reverse with
        | [] => none
        | r :: rest => do
          let next ← F.lf (r.first, r.last) r.c
          let (l2, v, ok) ← compute F depth (jumps + 1) next v ok
          let (l3, e) ← sameLevel (compute F depth jumps) rest v ok
          return (l ++ l2 ++ l3, e)

/-- operator() (phi.h:476-480) -/
def report (F : ClosedPhi) (range : Nat × Nat) (prev : Nat) : Option (List Nat) := do
  let (v, ok) ← F.phi prev
  let (l, _) ← F.compute (2 * F.samplingSize + 2) 0 range v ok
  return l

/-- the functors buildPhiForRangeSimple hands to PhiBackwardForRange (phi.h:343-377) -/
def simple (F : ClosedPhi) : RangePhi RleString.StringRun where
  phi := F.phi
  getSample := fun r => F.sampleAt r.last
  splitRun := fun r => F.split r.first r.last
  navigate := fun r => do
    let (a, b) ← F.lf (r.first, r.last) r.c
    return { r with first := a, last := b }
  samplingSize := F.samplingSize
  seqSize := F.bwtSize
  updateRun := fun r => do
    let e ← csub r.last 1
    return { r with last := e }
  isRunEmpty := fun r => decide (r.last < r.first)

/-- PhiBackwardForRange::operator() (phi.h:280-286) with those functors -/
def reportSimple (F : ClosedPhi) (range : Nat × Nat) (prev : Nat) : Option (List Nat) :=
  if range.2 < range.1 then some []
  else do
    let runs ← F.split range.1 range.2
    F.simple.backRange runs prev

end ClosedPhi

/-- the parts of an index over inclusive ranges (benchmark/factory.h:30-93, 343-360): rle_string of the BWT with the terminator written as 1, the F
    array, and the items of a sub-sampled index; `lastSym` is `bwt_rle[n-1]` (benchmark/factory.h:264, 283, 305) -/
structure LegacyIndex where
  rle : RleString
  f : List Nat
  lastSym : Nat
  items : SrIndexValid

namespace LegacyIndex

/-- LFOnBWT (bwt.h:96-127) with RankOfChar (tools.h:160-176) and the F array; `max_c` is `f.size() - 1` (benchmark/factory.h:111-117) -/
def lf (I : LegacyIndex) (range : Nat × Nat) (c : Nat) : Option (Nat × Nat) :=
  computeLF I.rle.rank (fun c => I.f[c]?) range c I.rle.size (I.f.length - 1)

/-- BasicLF::operator() (bwt.h:129-151) -/
def basicLF (I : LegacyIndex) (pos : Nat) : Option Nat := do
  let c ← I.rle.access pos
  let a ← I.f[c]?
  let r ← I.rle.rank pos c
  return a + r

/-- GetSampleForBWTRun::operator() (tools.h:196-216) -/
def sampleForRun (I : LegacyIndex) (run : Nat) : Option Nat := do
  let k ← bvRank I.items.sr.samplesIdx run
  I.items.sr.base.samples[k]?

/-- GetSampleForSAPosition::operator() (tools.h:218-249) with RunOfSAPosition (tools.h:178-194) -/
def sampleAt (I : LegacyIndex) (pos : Nat) : Option (Option Nat) := do
  let (run, last) ← I.rle.runOf pos
  if pos ≠ last then return none
  else do
    let b ← I.items.sr.samplesIdx[run]?
    if b then do
      let v ← I.sampleForRun run
      return some v
    else return none

/-- the functors of the range reporters over a given phi (benchmark/factory.h:179-193) -/
def closed (I : LegacyIndex) (phi : Nat → Option (Nat × Bool)) : ClosedPhi where
  phi := phi
  split := I.rle.breakInRuns
  lf := I.lf
  sampleAt := I.sampleAt
  samplingSize := I.items.sr.s
  bwtSize := I.rle.size

/-- operator() of buildComputeDataBackwardSearchStepForPhiBackward (toehold.h:57-93): the step data hold the character and the end of
    the range before the step -/
def update (I : LegacyIndex) (range next : Nat × Nat) (c step : Nat) (d : StepData (Nat × Nat)) : Option (StepData (Nat × Nat)) :=
  let new : StepData (Nat × Nat) := { step := step, run := (c, range.2) }
  if d.step = 0 then some new
  else if next.2 < next.1 then some d
  else do
    let b ← I.rle.access range.2
    if b = c then return d else return new

/-- buildComputeSAValueBackward (tools.h:315-351) over GetSampleForSAPosition and BasicLF (benchmark/factory.h:199-210) -/
def saValue (I : LegacyIndex) (pos : Nat) : Option Nat :=
  saValueBackward I.sampleAt I.basicLF (I.rle.size + 1) I.rle.size pos

/-- compute_sa_value of buildComputeToeholdForPhiBackward (toehold.h:140-152) -/
def lastValueOf (I : LegacyIndex) (d : Nat × Nat) : Option Nat := do
  let rnk ← I.rle.rank (d.2 + 1) d.1
  assertC (decide (0 < rnk))
  let j ← I.rle.select (rnk - 1) d.1
  assertC (decide (j ≤ d.2))
  I.saValue j

/-- buildComputeToeholdForPhiBackward (toehold.h:116-155) -/
def toehold (I : LegacyIndex) (d : StepData (Nat × Nat)) : Option Nat := computeToehold I.lastValueOf I.rle.size d

/-- get_new_range of buildComputeAllValuesWithPhiBackwardForRange (phi.h:806-815) -/
def shrink (range : Nat × Nat) : Option (Nat × Nat) := do
  let e ← csub range.2 1
  return (range.1, e)

/-- buildSharedPtrRIndex (index_base.h:295-324) with GetInitialDataBackwardSearchStep (toehold.h:22-50) and the functor for the rest of the
    range; the symbols are the bytes themselves (benchmark/factory.h:238) -/
def functors (I : LegacyIndex) (phiForRange : Nat × Nat → Nat → Option (List Nat)) : Functors (Nat × Nat) (Nat × Nat) (StepData (Nat × Nat)) where
  lf := I.lf
  toRange := fun r => r
  update := I.update
  computeAll := computeAllValues phiForRange I.toehold shrink
  bwtSize := I.rle.size
  initial := fun i => { step := i, run := (I.lastSym, I.rle.size - 1) }
  getSymbol := fun c => c
  fullRange := fun n => (0, n - 1)
  isEmpty := fun r => decide (r.2 < r.1)
  bounds := fun r => r

/-- RIndexSampled: links without validity, buildPhiForRangeSimple (benchmark/factory.h:256-273); the phi of the simple functor drops the
    flag (phi.h:351) -/
def sampled (I : LegacyIndex) := I.functors (I.closed I.items.sr.base.phi).reportSimple

/-- RIndexSampledWithTrustedMarks (benchmark/factory.h:275-292) -/
def trustedMarks (I : LegacyIndex) := I.functors (I.closed I.items.phiMark).report

/-- RIndexSampledWithTrustedAreas (benchmark/factory.h:294-314) -/
def trustedAreas (I : LegacyIndex) := I.functors (I.closed I.items.phiArea).report

/-- `replace_copy(bwt, …, 0, 1)` (benchmark/bm_build_ri_items.cpp:204): rle_string refuses the byte 0 -/
def writeTerminator (c : Nat) : Nat := if c = 0 then 1 else c

/-- the parts over the text `T` (bytes) with suffix array `sa`: the BWT through rle_string with block size `B`, the F array (number of
    smaller symbols, 256 entries, benchmark/bm_build_ri_items.cpp:117-120, 174-177), the items of the sub-sampled index -/
def build (T sa : List Nat) (s B : Nat) : Option LegacyIndex := do
  let items ← SrIndexValid.build T sa s
  let rle ← RleString.build ((bwtOf T sa).map writeTerminator) B
  let last ← csub rle.size 1
  let c ← rle.access last
  return { rle := rle, f := (List.range 256).map (below T), lastSym := c, items := items }

end LegacyIndex

/-- the parts of the index with one sample per run (benchmark/factory.h:42-58, 241-254) -/
structure LegacyRIndex where
  rle : RleString
  f : List Nat
  items : RIndex
  finalValue : Nat

namespace LegacyRIndex

/-- LFOnBWT (bwt.h:96-127), as above -/
def lf (I : LegacyRIndex) (range : Nat × Nat) (c : Nat) : Option (Nat × Nat) :=
  computeLF I.rle.rank (fun c => I.f[c]?) range c I.rle.size (I.f.length - 1)

/-- GetSampleForSAPosition with every run sampled (benchmark/factory.h:134-142) -/
def sampleAt (I : LegacyRIndex) (pos : Nat) : Option (Option Nat) := do
  let (run, last) ← I.rle.runOf pos
  if pos ≠ last then return none
  else do
    let v ← I.items.samples[run]?
    return some v

/-- GetLastValue::operator() (tools.h:251-313): the value returned -/
def lastValue (I : LegacyRIndex) (range next : Nat × Nat) (c : Nat) (v : Option Nat) : Option (Option Nat) :=
  if next.2 < next.1 then some v
  else do
    let b ← I.rle.access range.2
    if b = c then
      match v with
      | some x => do
        assertC (decide (0 < x))
        return some (x - 1)
      | none => do
        let b ← I.rle.access (range.2 + 1)
        if b = c then return v else I.sampleAt range.2
    else do
      let rnk ← I.rle.rank range.2 c
      assertC (decide (0 < rnk))
      let j ← I.rle.select (rnk - 1) c
      assertC (decide (range.1 ≤ j ∧ j < range.2))
      I.sampleAt j

/-- ComputeAllValuesWithPhi::operator() (phi.h:754-777): `len` positions from the value `k` -/
def allValues (I : LegacyRIndex) : Nat → Nat → Option (List Nat)
  | 0, _ => some []
  | len + 1, k => do
    let (w, _) ← I.items.phi k
    let l ← allValues I len w
    return k :: l

/-- buildSharedPtrRIndex (index_base.h:295-324) with GetLastValue, ComputeAllValuesWithPhi and GetOptionalValue (tools.h:358-369). RIndexBase
    calls the update functor for its effect on the last argument and drops the result (index_base.h:245); GetLastValue takes that argument by
    const reference and returns the new value. So the data stay as they are. -/
def functors (I : LegacyRIndex) : Functors (Nat × Nat) (Nat × Nat) (Option Nat) where
  lf := I.lf
  toRange := fun r => r
  update := fun range next c _ v => (I.lastValue range next c v).map (fun _ => v)
  computeAll := fun range v => v.bind (I.allValues (range.2 + 1 - range.1))
  bwtSize := I.rle.size
  initial := fun _ => some I.finalValue
  getSymbol := fun c => c
  fullRange := fun n => (0, n - 1)
  isEmpty := fun r => decide (r.2 < r.1)
  bounds := fun r => r

/-- the functors with the result of GetLastValue kept, as its authors meant it -/
def keeping (I : LegacyRIndex) : Functors (Nat × Nat) (Nat × Nat) (Option Nat) :=
  { I.functors with update := fun range next c _ v => I.lastValue range next c v }

/-- the parts over the text `T`; the initial value is the last sample plus one (benchmark/factory.h:244-245) -/
def build (T sa : List Nat) (B : Nat) : Option LegacyRIndex := do
  let items ← RIndex.build T sa
  let rle ← RleString.build ((bwtOf T sa).map LegacyIndex.writeTerminator) B
  let last ← csub items.samples.length 1
  let v ← items.samples[last]?
  return { rle := rle, f := (List.range 256).map (below T), items := items, finalValue := v + 1 }

end LegacyRIndex
end Sri

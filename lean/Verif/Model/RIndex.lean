import Verif.Model.Construct
import Verif.Model.IndexBase
import Verif.Model.Phi
/-! # r_index.h: RIndex -/
namespace Sri
set_option autoImplicit false

/-- range `[start, stop)` of suffix-array positions (r_index.h:137-147) -/
structure Range where
  start : Nat
  stop : Nat
deriving Repr, DecidableEq

/-- DataLF (r_index.h:116-132): `rank` is the rank of the run, `cover` tells whether the run covers the position -/
structure DataLF where
  value : Nat
  rank : Nat
  cover : Bool
deriving Repr, DecidableEq

/-- RangeLF (r_index.h:149-152) -/
structure RangeLF where
  start : DataLF
  stop : DataLF
deriving Repr, DecidableEq

/-- RunData (r_index.h:185-191) -/
structure RunData where
  c : Nat
  lastRunRnk : Nat
deriving Repr, DecidableEq

/-- the items RIndex loads (r_index.h:78-101); `n` is `C[sigma]`, set by constructLF (r_index.h:159) -/
structure RIndex where
  alphabet : Alphabet
  bwtRle : RLEString
  samples : List Nat
  marks : List Bool
  markToSample : List Nat
  n : Nat
deriving Repr, DecidableEq

namespace RIndex

/-- constructLF (r_index.h:156-181) with lf (lf.h:25-44). The end value `rank + C - !cover + 1` is computed modulo 2^64; written here as
    `rank + C + cover`, which is the same number. -/
def lf (I : RIndex) (range : Range) (c : Nat) : Option RangeLF := do
  let last ← csub range.stop 1
  let s ← I.bwtRle.rankReport range.start c
  let e ← I.bwtRle.rankReport last c
  let smaller ← I.alphabet.C[c]?
  return { start := { value := s.1 + smaller, rank := s.2.1, cover := s.2.2 },
           stop := { value := e.1 + smaller + (if e.2.2 then 1 else 0), rank := e.2.1, cover := e.2.2 } }

/-- assignment of a RangeLF to a Range (r_index.h:141-145) -/
def toRange (r : RangeLF) : Range := { start := r.start.value, stop := r.stop.value }

/-- is_lf_trivial (r_index.h:203-206) -/
def lfTrivial (_ : Range) (_ : Nat) (next : RangeLF) : Bool :=
  !decide (next.start.value < next.stop.value) || next.stop.cover

/-- constructCreateDataBackwardSearchStep (r_index.h:195-200) -/
def createData (_ : Range) (c : Nat) (next : RangeLF) (step : Nat) : Option (StepData RunData) :=
  some { step := step, run := { c := c, lastRunRnk := next.stop.rank } }

/-- get_sa_value_for_run_data (r_index.h:217-220) -/
def saValueOfRun (I : RIndex) (d : RunData) : Option Nat := do
  let run ← I.bwtRle.selectOnRuns d.lastRunRnk d.c
  let s ← I.samples[run]?
  return s + 1

/-- constructComputeToehold (r_index.h:213-224): the modulus is the size of the run-length string -/
def toehold (I : RIndex) (d : StepData RunData) : Option Nat :=
  computeToehold I.saValueOfRun I.bwtRle.size d

/-- predecessor structure of the marks (r_index.h:241) -/
def predecessor (I : RIndex) (v : Nat) : Option (Nat × Nat) :=
  circularPredecessor (bvRank I.marks) (bvSelect I.marks) I.n v

/-- constructPhi with constructGetMarkToSampleIdx (r_index.h:226-247), default validity `true` -/
def phi (I : RIndex) (v : Nat) : Option (Nat × Bool) :=
  phiBackward I.predecessor
    (getSampleForPhi (fun i => (I.markToSample[i]?).map (fun k => (k, true))) (fun k => I.samples[k]?) validatorDefault)
    I.n v

/-- constructPhiForRange (r_index.h:249-262) -/
def phiForRange (I : RIndex) (range : Range) (k : Nat) : Option (List Nat) :=
  phiLoop I.phi (range.stop - range.start) k

/-- update_range (r_index.h:266-270) -/
def shrink (range : Range) : Option Range := do
  let e ← csub range.stop 1
  return { range with stop := e }

/-- constructIndex (r_index.h:103-114) -/
def functors (I : RIndex) : Functors Range RangeLF (StepData RunData) where
  lf := I.lf
  toRange := toRange
  update := updateToehold lfTrivial createData
  computeAll := computeAllValues I.phiForRange I.toehold shrink
  bwtSize := I.n
  initial := fun _ => { step := 0, run := { c := 0, lastRunRnk := 0 } }
  getSymbol := I.alphabet.char2comp
  fullRange := fun n => { start := 0, stop := n }
  isEmpty := fun r => !decide (r.start < r.stop)
  bounds := fun r => (r.start, r.stop)

/-- constructRIndex (r_index.h:297-321) and load: the index over the text `T` with suffix array `sa`.
    Keys: SAMPLES = bwt_run_last_text_pos, MARKS = bit vector of bwt_run_first_text_pos,
    MARK_TO_SAMPLE = bwt_run_first_text_pos_sorted_to_last_idx (r_index.h:69-75). -/
def build (T sa : List Nat) : Option RIndex := do
  let b ← constructBase T sa
  let links := linksPhiBackward b.runs.firstTextPos
  let marks ← bitVectorFromInts b.runs.firstTextPos b.n false
  let n ← b.alphabet.C[b.alphabet.sigma]?
  return { alphabet := b.alphabet, bwtRle := b.bwtRle, samples := b.runs.lastTextPos, marks := marks,
           markToSample := links.2, n := n }

/-- `RIndex::Count` on the built index -/
def count (I : RIndex) (P : List Nat) : Option (Nat × Nat) := I.functors.count P

/-- `RIndex::Locate` on the built index -/
def locate (I : RIndex) (P : List Nat) : Option (List Nat) := I.functors.locate P

end RIndex
end Sri

import Verif.Model.RIndex
import Verif.Model.PsiText
/-! # r_csa.h: RCSAWithBWTRun and RCSAWithPsiRun, with their construction -/
namespace Sri
set_option autoImplicit false

/-- DataLF of the psi-based indexes (r_csa.h:118-134): rank and run reported by `PsiCoreRLE::rank` -/
structure DataRunLF where
  value : Nat
  rstart : Nat
  rstop : Nat
  rank : Nat
deriving Repr, DecidableEq

/-- RangeLF of the psi-based indexes (r_csa.h:151-154) -/
structure RangeRunLF where
  start : DataRunLF
  stop : DataRunLF
deriving Repr, DecidableEq

/-- the members that navigation uses (r_csa.h:87-90): `n` is `C[sigma]`, set by constructLF (r_csa.h:163) -/
structure PsiNav where
  alphabet : Alphabet
  psi : PsiCoreRLE
  n : Nat
deriving Repr, DecidableEq

namespace PsiNav

/-- psi_rank of constructLF (r_csa.h:166-174) -/
def psiRank (N : PsiNav) (c v : Nat) : Option DataRunLF := do
  let (rank, s, e, k) ← N.psi.rankReport c v
  return { value := rank, rstart := s, rstop := e, rank := k }

/-- constructLF (r_csa.h:160-185) with lf (lf.h:25-44) -/
def lf (N : PsiNav) (range : Range) (c : Nat) : Option RangeRunLF := do
  let s ← N.psiRank c range.start
  let e ← N.psiRank c range.stop
  let smaller ← N.alphabet.C[c]?
  return { start := { s with value := s.value + smaller }, stop := { e with value := e.value + smaller } }

/-- assignment of a RangeLF to a Range (r_csa.h:144-148) -/
def toRange (r : RangeRunLF) : Range := { start := r.start.value, stop := r.stop.value }

/-- is_lf_trivial_with_psi (toehold.h:97-101) -/
def lfTrivial (range : Range) (_ : Nat) (next : RangeRunLF) : Bool :=
  !decide (next.start.value < next.stop.value) ||
    (!decide (range.start < next.start.rstart) && decide (range.start < next.start.rstop))

/-- the Psi functor (psi.h:712-738) over the run-length core and `C` (construct.h:193-201) -/
def psiAt (N : PsiNav) (i : Nat) : Option Nat := psiApply N.psi.select N.alphabet.C i

end PsiNav

/-- the items RCSAWithBWTRun and RCSAWithPsiRun load (r_csa.h:87-101, 443-457) -/
structure RCSA extends PsiNav where
  samples : List Nat
  marks : List Bool
  markToSample : List Nat
deriving Repr, DecidableEq

namespace RCSA

/-- successor structure of the marks (r_csa.h:201, 559) -/
def successor (I : RCSA) (v : Nat) : Option (Nat × Nat) :=
  circularSoftSuccessor (bvRank I.marks) (bvSelect I.marks) I.n v

/-- the phi functor of constructPhiForRange (r_csa.h:198-210, 556-568), default validity `true` -/
def phi (I : RCSA) (v : Nat) : Option (Nat × Bool) :=
  phiForward I.successor
    (getSampleForPhi (fun i => (I.markToSample[i]?).map (fun k => (k, true))) (fun k => I.samples[k]?) validatorDefault)
    I.n v

/-- constructPhiForRange (r_csa.h:211-221, 569-579) -/
def phiForRange (I : RCSA) (range : Range) (k : Nat) : Option (List Nat) :=
  phiLoop I.phi (range.stop - range.start) k

/-- update_range (r_csa.h:238-242, 596-600) -/
def shrink (range : Range) : Option Range := some { range with start := range.start + 1 }

/-- constructIndex of both classes (r_csa.h:103-118, 459-475), given how they create the toehold data and value a run -/
def functorsWith {β : Type} (I : RCSA) (create : Range → Nat → RangeRunLF → Nat → Option (StepData β)) (init : StepData β)
    (saValueOfRun : β → Option Nat) : Functors Range RangeRunLF (StepData β) where
  lf := I.lf
  toRange := PsiNav.toRange
  update := updateToehold PsiNav.lfTrivial create
  computeAll := computeAllValues I.phiForRange (computeToehold saValueOfRun I.psi.n) shrink
  bwtSize := I.n
  initial := fun _ => init
  getSymbol := I.alphabet.char2comp
  fullRange := fun n => { start := 0, stop := n }
  isEmpty := fun r => !decide (r.start < r.stop)
  bounds := fun r => (r.start, r.stop)

end RCSA

/-- contract of std::lower_bound on a sorted sequence: index of the first element not smaller than `x` -/
def lowerBound (xs : List Nat) (x : Nat) : Nat := (xs.takeWhile (fun y => decide (y < x))).length

/-- computeMarkToSampleLinkForPhiForward for one mark (phi.h:214-227) -/
def markToSampleLink (lf psi : Nat → Option Nat) (rankSample : Nat → Nat) (n markPos : Nat) : Option Nat := do
  let j ← lf markPos
  let i ← cmod (j + 1) n
  let k ← psi i
  return rankSample k

/-- constructMarkToSampleLinks (construct.h:155-166): indices of the marks by text position, and the link of each -/
def constructMarkToSampleLinks (marks : List Nat) (getLink : Nat → Option Nat) : Option (List Nat × List Nat) := do
  let idx := sortIndices marks
  let links ← idx.mapM getLink
  return (idx, links)

/-- constructMarkToSampleLinksForPhiForwardWithBWTRuns (construct.h:168-221) -/
def linksPhiForwardBWT (b : BaseItems) (p : PsiItems) : Option (List Nat × List Nat) := do
  let n ← b.alphabet.C[b.alphabet.sigma]?
  constructMarkToSampleLinks b.runs.lastTextPos (fun m => do
    let pos ← b.runs.last[m]?
    markToSampleLink (basicLF b.bwtRle b.alphabet.C) (psiApply p.core.select b.alphabet.C) (lowerBound b.runs.first) n pos)

/-- the loop that distributes the text positions over the buckets of their symbols (construct.h:120-122) -/
def bucketLoop (access : Nat → Option Nat) : List (Nat × Nat) → List (List Nat) → Option (List (List Nat))
  | [], bs => some bs
  | (pos, v) :: rest, bs => do
    let c ← access pos
    let b ← bs[c]?
    bucketLoop access rest (bs.set c (b ++ [v]))

/-- constructPsiRuns for one part, heads or tails (construct.h:108-136): text positions of the runs, in the order of their symbols -/
def constructPsiRuns (b : BaseItems) (pos textPos : List Nat) : Option (List Nat) := do
  let bs ← bucketLoop b.bwtRle.access (pos.zip textPos) (List.replicate b.alphabet.sigma [])
  return bs.flatten

/-- constructMarkToSampleLinksForPhiForwardWithPsiRuns (construct.h:223-239) -/
def linksPhiForwardPsi (marks : List Nat) : Option (List Nat × List Nat) :=
  constructMarkToSampleLinks marks (fun m => cmod (m + 1) marks.length)

namespace RCSABwt

/-- the lambda of constructIndex (r_csa.h:106-110): RunData holds the position of the head of the run -/
def createData (_ : Range) (_ : Nat) (next : RangeRunLF) (step : Nat) : Option (StepData Nat) :=
  some { step := step, run := next.start.rstart }

/-- get_sa_value_for_bwt_run_start (r_csa.h:227-230) -/
def saValueOfRun (I : RCSA) (pos : Nat) : Option Nat := do
  let run ← I.psi.rankRun pos
  let s ← I.samples[run]?
  return s + 1

/-- RCSAWithBWTRun::constructIndex (r_csa.h:103-118) -/
def functors (I : RCSA) : Functors Range RangeRunLF (StepData Nat) :=
  I.functorsWith createData { step := 0, run := 0 } (saValueOfRun I)

/-- constructRCSAWithBWTRuns (r_csa.h:350-378) and load. Keys: SAMPLES = bwt_run_first_text_pos, MARKS = bit vector of
    bwt_run_last_text_pos, MARK_TO_SAMPLE = bwt_run_last_text_pos_sorted_to_first_idx (r_csa.h:79-85). -/
def build (T sa : List Nat) : Option RCSA := do
  let b ← constructBase T sa
  let p ← constructPsiItems b
  let links ← linksPhiForwardBWT b p
  let marks ← bitVectorFromInts b.runs.lastTextPos b.n false
  let n ← b.alphabet.C[b.alphabet.sigma]?
  return { alphabet := b.alphabet, psi := p.core, n := n, samples := b.runs.firstTextPos, marks := marks, markToSample := links.2 }

/-- `RCSAWithBWTRun::Count` -/
def count (I : RCSA) (P : List Nat) : Option (Nat × Nat) := (functors I).count P

/-- `RCSAWithBWTRun::Locate` -/
def locate (I : RCSA) (P : List Nat) : Option (List Nat) := (functors I).locate P

end RCSABwt

/-- RunData of RCSAWithPsiRun (r_csa.h:539-542) -/
structure PsiRunData where
  c : Nat
  partialRank : Nat
deriving Repr, DecidableEq

namespace RCSAPsi

/-- the lambda of constructIndex (r_csa.h:463-466) -/
def createData (_ : Range) (c : Nat) (next : RangeRunLF) (step : Nat) : Option (StepData PsiRunData) :=
  some { step := step, run := { c := c, partialRank := next.start.rank } }

/-- get_sa_value_for_bwt_run_start (r_csa.h:585-588) -/
def saValueOfRun (I : RCSA) (d : PsiRunData) : Option Nat := do
  let prev ← I.psi.rankCharRun d.c
  let s ← I.samples[prev + d.partialRank]?
  return s + 1

/-- RCSAWithPsiRun::constructIndex (r_csa.h:459-475) -/
def functors (I : RCSA) : Functors Range RangeRunLF (StepData PsiRunData) :=
  I.functorsWith createData { step := 0, run := { c := 0, partialRank := 0 } } (saValueOfRun I)

/-- constructItems (r_csa.h:623-676) and load. SAMPLES = heads and MARKS = bit vector of the tails, both in psi order; MARK_TO_SAMPLE =
    links of the tails by text position (r_csa.h:434-441). -/
def build (T sa : List Nat) : Option RCSA := do
  let b ← constructBase T sa
  let p ← constructPsiItems b
  let heads ← constructPsiRuns b b.runs.first b.runs.firstTextPos
  let tails ← constructPsiRuns b b.runs.last b.runs.lastTextPos
  let marks ← bitVectorFromInts tails b.n false
  let links ← linksPhiForwardPsi tails
  let n ← b.alphabet.C[b.alphabet.sigma]?
  return { alphabet := b.alphabet, psi := p.core, n := n, samples := heads, marks := marks, markToSample := links.2 }

/-- `RCSAWithPsiRun::Count` -/
def count (I : RCSA) (P : List Nat) : Option (Nat × Nat) := (functors I).count P

/-- `RCSAWithPsiRun::Locate` -/
def locate (I : RCSA) (P : List Nat) : Option (List Nat) := (functors I).locate P

end RCSAPsi
end Sri

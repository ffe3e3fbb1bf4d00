import Verif.Model.EncVector
import Verif.Model.Construct
/-! # psi.h: psi and its two representations -/
namespace Sri
set_option autoImplicit false

/-- constructPsi (psi.h:24-37): `saPos` is sa_position; positions of the BWT are scanned in order -/
def psiLoop : List Nat → Nat → List Nat → List Nat → Option (List Nat)
  | [], _, _, psi => some psi
  | c :: bwt, i, saPos, psi => do
    let p ← saPos[c]?
    assertC (decide (p < psi.length))
    psiLoop bwt (i + 1) (saPos.set c (p + 1)) (psi.set p i)

def constructPsi (bwt C : List Nat) : Option (List Nat) := do
  let sigma ← csub C.length 1
  let n ← C[sigma]?
  assertC (decide (n = bwt.length))
  psiLoop bwt 0 C (List.replicate n 0)

/-- contract of std::upper_bound on a sorted sequence: index of the first element greater than `x` -/
def upperBound (xs : List Nat) (x : Nat) : Nat := (xs.takeWhile (fun y => decide (y ≤ x))).length

/-- PsiCoreRLE::RunOps with its DecodeUInt (psi.h:490-554): `left` is n_runs_to_next_sample_, `idx` idx_, `ptr` the position of the
    next code, `soft` run_soft_rank_ -/
structure RunOps where
  left : Nat
  idx : Nat
  ptr : Nat
  soft : Nat
deriving Repr, DecidableEq

/-- number of samples (psi.h:479, 511); an empty vector wraps around -/
def nSamples (E : EncVector) : Option Nat := do
  let s ← csub E.size 1
  assertC (decide (E.dens ≠ 0))
  return s / E.dens + 1

namespace RunOps

/-- RunOps(t_values, t_idx, t_n) (psi.h:508-512, DecodeUInt 492-495) -/
def init (E : EncVector) (idx : Nat) : Option RunOps := do
  let p ← E.sp[2 * idx + 1]?
  return { left := 0, idx := idx, ptr := p, soft := 0 }

/-- nextStart (psi.h:514-532) -/
def nextStart (E : EncVector) (n : Nat) (st : RunOps) (runEnd : Nat) : Option (Nat × RunOps) := do
  if st.left ≠ 0 then
    let (d, p) ← eliasDecode E.z st.ptr
    return (runEnd + d, { st with soft := st.soft + 1, left := st.left - 1, ptr := p })
  else
    let m ← nSamples E
    if st.idx < m then
      let rest ← csub E.size (st.idx * E.dens)
      let left ← csub (min E.dens rest / 2) 1
      let v ← E.sp[2 * st.idx]?
      return (v, { st with soft := st.idx * E.dens / 2, left := left, idx := st.idx + 1 })
    else return (n, { st with soft := E.size / 2 })

/-- nextEnd (psi.h:534-536) -/
def nextEnd (E : EncVector) (n : Nat) (st : RunOps) (runStart : Nat) : Option (Nat × RunOps) := do
  if runStart ≠ n then
    let (d, p) ← eliasDecode E.z st.ptr
    return (runStart + d, { st with ptr := p })
  else return (n, st)

end RunOps

/-- computeUpperBound (psi.h:478-488): number of samples not greater than `v` -/
def computeUpperBound (E : EncVector) (v : Nat) : Option Nat := do
  let m ← nSamples E
  let samples ← (List.range m).mapM E.sample
  return upperBound samples v

/-- PsiCoreRLE (psi.h:53-599) -/
structure PsiCoreRLE where
  n : Nat
  first : Nat
  parts : List (EncVector × List Nat)
deriving Repr, DecidableEq

namespace PsiCoreRLE

/-- the loop over the psi values of one symbol (psi.h:86-99): `acc` is psi_c, `ranks` psi_c_sample_rank, `j` the number of values
    consumed, `[s,e)` the run being scanned -/
def runLoop (dens : Nat) : List Nat → List Nat → Nat → Nat → Nat → List Nat → List Nat × List Nat
  | acc, ranks, _, s, e, [] => (acc ++ [s, e], ranks)
  | acc, ranks, j, s, e, v :: vs =>
    if e = v then runLoop dens acc ranks (j + 1) s (e + 1) vs
    else
      let acc := acc ++ [s, e]
      let ranks := if acc.length % dens = 0 then ranks ++ [j] else ranks
      runLoop dens acc ranks (j + 1) v (v + 1) vs

/-- the partial psi of one symbol (psi.h:79-105); the loop header reads `t_psi[sa_sp]` first -/
def buildPart (dens : Nat) (vals : List Nat) : EncVector × List Nat :=
  match vals with
  | [] => (EncVector.build dens [], [])
  | v :: vs =>
    let r := runLoop dens [] [] 1 v (v + 1) vs
    (EncVector.build dens r.1, r.2)

/-- the constructor (psi.h:65-107); reading `t_psi[sa_sp]` (line 77) outside psi is undefined. `dens` is TEncVector::sample_dens. -/
def buildLoop (dens : Nat) (C psi : List Nat) : List Nat → Nat → List (EncVector × List Nat) → Option (Nat × List (EncVector × List Nat))
  | [], first, parts => some (first, parts)
  | i :: is, first, parts => do
    let sp ← C[i]?
    let ep ← C[i + 1]?
    let v ← psi[sp]?
    assertC (decide (ep ≤ psi.length))
    let first := if v = 0 then i else first
    buildLoop dens C psi is first (parts ++ [buildPart dens ((psi.drop sp).take (ep - sp))])

def build (dens : Nat) (C psi : List Nat) : Option PsiCoreRLE := do
  let sigma ← csub C.length 1
  let n ← C[sigma]?
  let (first, parts) ← buildLoop dens C psi (List.range sigma) 0 []
  return { n := n, first := first, parts := parts }

/-- RunSelect (psi.h:556-561) -/
structure RunSel where
  start : Nat
  stop : Nat
  rankEnd : Nat
deriving Repr, DecidableEq

/-- the loop of selectCore (psi.h:582-587); `rnk` is already decremented -/
def selectLoop (E : EncVector) (n rnk : Nat) : Nat → RunOps → Nat → Nat → Option (RunSel × RunOps)
  | 0, _, _, _ => none
  | f + 1, st, runEnd, rank => do
    let (s, st) ← RunOps.nextStart E n st runEnd
    let (e, st) ← RunOps.nextEnd E n st s
    let d ← csub e s
    if rank + d ≤ rnk then selectLoop E n rnk f st e (rank + d)
    else return ({ start := s, stop := e, rankEnd := rank + d }, st)

/-- selectCore (psi.h:568-590) -/
def selectCore (E : EncVector) (ranks : List Nat) (n rnk : Nat) : Option (RunSel × RunOps) := do
  let rnk ← csub rnk 1
  let idx := upperBound ranks rnk
  let rank := if idx ≠ 0 then ranks.getD (idx - 1) 0 else 0
  let st ← RunOps.init E idx
  selectLoop E n rnk (E.size + 1) st 0 rank

/-- `run.end - 1 - (run.rank_end - t_rnk)` (psi.h:120, 134, 407, 419) -/
def selValue (run : RunSel) (rnk : Nat) : Option Nat := do
  let e ← csub run.stop 1
  let d ← csub run.rankEnd rnk
  csub e d

/-- select(c, rnk) (psi.h:115-121) -/
def select (P : PsiCoreRLE) (c rnk : Nat) : Option Nat := do
  let (E, ranks) ← P.parts[c]?
  let (run, _) ← selectCore E ranks P.n rnk
  selValue run rnk

/-- select(c, rnk, report) (psi.h:127-135): value, start and end of its run, index of the run -/
def selectReport (P : PsiCoreRLE) (c rnk : Nat) : Option (Nat × Nat × Nat × Nat) := do
  let (E, ranks) ← P.parts[c]?
  let (run, st) ← selectCore E ranks P.n rnk
  let v ← selValue run rnk
  return (v, run.start, run.stop, st.soft)

/-- the do-while loop of rank (psi.h:155-159) -/
def rankLoop (E : EncVector) (n v : Nat) : Nat → RunOps → Nat → Nat → Option (Nat × Nat)
  | 0, _, _, _ => none
  | f + 1, st, s, rank => do
    let (e, st) ← RunOps.nextEnd E n st s
    let d ← csub e s
    if e < v then
      let (s', st) ← RunOps.nextStart E n st e
      if s' < v then rankLoop E n v f st s' (rank + d) else return (e, rank + d)
    else return (e, rank + d)

/-- `idx ? ranks[idx - 1] : 0` (psi.h:149, 182) -/
def sampleRank (ranks : List Nat) (idx : Nat) : Option Nat := if idx ≠ 0 then ranks[idx - 1]? else some 0

/-- rank(c, v) (psi.h:141-163) -/
def rank (P : PsiCoreRLE) (c v : Nat) : Option Nat := do
  assertC (decide (v ≤ P.n))
  let (E, ranks) ← P.parts[c]?
  let ub ← computeUpperBound E v
  if ub = 0 then return 0
  else
    let idx := ub - 1
    let rank ← sampleRank ranks idx
    let st ← RunOps.init E idx
    let (s, st) ← RunOps.nextStart E P.n st 0
    let (e, rank) ← rankLoop E P.n v (E.size + 1) st s rank
    if v < e then csub rank (e - v) else return rank

/-- the loop of rank with report (psi.h:188-192) -/
def rankReportLoop (E : EncVector) (n v : Nat) : Nat → RunOps → Nat → Nat → Nat → Option (Nat × Nat × Nat × RunOps)
  | 0, _, _, _, _ => none
  | f + 1, st, s, e, rank => do
    if e ≤ v then
      let d ← csub e s
      let (s', st) ← RunOps.nextStart E n st e
      let (e', st) ← RunOps.nextEnd E n st s'
      rankReportLoop E n v f st s' e' (rank + d)
    else return (rank, s, e, st)

/-- the last position stands for the end of the sequence (psi.h:176-177) -/
def clampLast (n v : Nat) : Option Nat := if v = n then csub v 1 else some v

/-- rank(c, v, report) (psi.h:171-200): number of values below `v`, start and end of the run containing `v` or of the next one, and
    its index -/
def rankReport (P : PsiCoreRLE) (c v : Nat) : Option (Nat × Nat × Nat × Nat) := do
  assertC (decide (v ≤ P.n))
  let (E, ranks) ← P.parts[c]?
  let w ← clampLast P.n v
  let ub ← computeUpperBound E w
  let idx := if ub ≠ 0 then ub - 1 else 0
  let rank ← sampleRank ranks idx
  let st ← RunOps.init E idx
  let (s, st) ← RunOps.nextStart E P.n st 0
  let (e, st) ← RunOps.nextEnd E P.n st s
  let (rank, s, e, st) ← rankReportLoop E P.n w (E.size + 1) st s e rank
  return ((if s < v then rank + (v - s) else rank), s, e, st.soft)

/-- the loop of rankSoftRun(c, v) (psi.h:263-269): `left` is n_runs_to_next_sample -/
def softLoop (E : EncVector) (v : Nat) : Nat → Nat → Nat → Nat → Nat → Option (Nat × Nat × Nat)
  | 0, _, s, e, runs => some (runs, s, e)
  | left + 1, ptr, s, e, runs => do
    if e < v then
      let (g, ptr) ← eliasDecode E.z ptr
      if e + g ≤ v then
        let (l, ptr) ← eliasDecode E.z ptr
        softLoop E v left ptr (e + g) (e + g + l) (runs + 1)
      else return (runs, s, e)
    else return (runs, s, e)

/-- rankSoftRun(c, v) (psi.h:242-272) -/
def rankSoftRunC (P : PsiCoreRLE) (c v : Nat) : Option (Nat × Nat) := do
  let (E, _) ← P.parts[c]?
  let ub ← computeUpperBound E v
  if ub = 0 then return (0, P.n)
  else
    let idx := ub - 1
    let s ← E.sp[2 * idx]?
    let runs := idx * E.dens / 2 + 1
    if s = v then return (runs, s)
    else
      let ptr ← E.sp[2 * idx + 1]?
      let (l, ptr) ← eliasDecode E.z ptr
      let rest ← csub E.size (idx * E.dens)
      let left ← csub (min E.dens rest / 2) 1
      let (runs, s, e) ← softLoop E v left ptr s (s + l) runs
      return (runs, if v < e then s else P.n)

/-- rankSoftRun(v) (psi.h:225-236): the loop over the symbols -/
def softRunLoop (P : PsiCoreRLE) (v : Nat) : List Nat → Nat → Nat → Option (Nat × Nat)
  | [], runs, start => some (runs, start)
  | i :: is, runs, start => do
    let (k, s) ← P.rankSoftRunC i v
    softRunLoop P v is (runs + k) (if s ≠ P.n then s else start)

def rankSoftRun (P : PsiCoreRLE) (v : Nat) : Option (Nat × Nat) :=
  softRunLoop P v (List.range P.parts.length) 0 P.n

/-- exist (psi.h:206-210) -/
def exist (P : PsiCoreRLE) (c v : Nat) : Option Bool := do
  let (_, s) ← P.rankSoftRunC c v
  return decide (s ≠ P.n)

/-- rankRun (psi.h:215-220) -/
def rankRun (P : PsiCoreRLE) (v : Nat) : Option Nat := do
  let (runs, s) ← P.rankSoftRun v
  if v ≠ P.n ∧ s = v then csub runs 1 else return runs

/-- rankCharRun (psi.h:277-284) -/
def rankCharRun (P : PsiCoreRLE) (c : Nat) : Option Nat := do
  let sizes ← (List.range c).mapM (fun i => (P.parts[i]?).map (fun q => q.1.size / 2))
  return sizes.sum

/-- what splitInRuns and computeForwardRuns report: first, last (excluded), symbol, index of the run among those of the symbol, whether
    first is the start of the run -/
structure Piece where
  first : Nat
  last : Nat
  c : Nat
  idx : Nat
  isFirst : Bool
deriving Repr, DecidableEq

/-- the first loop of splitInRuns (psi.h:352-357) -/
def splitSkip (E : EncVector) (n first : Nat) : Nat → RunOps → Nat → Nat → Nat → Option (Nat × Nat × Nat × RunOps)
  | 0, _, _, _, _ => none
  | f + 1, st, s, e, next => do
    if e ≤ first then
      let (e', st) ← RunOps.nextEnd E n st next
      let (next', st) ← RunOps.nextStart E n st e'
      splitSkip E n first f st next e' next'
    else return (s, e, next, st)

/-- the second loop of splitInRuns with the final report (psi.h:362-375) -/
def splitReport (E : EncVector) (n last c : Nat) : Nat → RunOps → Nat → Nat → Nat → Nat → Option (List Piece)
  | 0, _, _, _, _, _ => none
  | f + 1, st, first, s, e, next => do
    if next < last then
      let k ← csub st.soft 1
      let (e', st') ← RunOps.nextEnd E n st next
      let (next', st') ← RunOps.nextStart E n st' e'
      let rest ← splitReport E n last c f st' next next e' next'
      return { first := first, last := e, c := c, idx := k, isFirst := decide (first = s) } :: rest
    else
      if first < min last e then
        let k ← csub st.soft 1
        return [{ first := first, last := min last e, c := c, idx := k, isFirst := decide (first = s) }]
      else return []

/-- splitInRuns(c, first, last, report) (psi.h:338-376) -/
def splitInRunsC (P : PsiCoreRLE) (c first last : Nat) : Option (List Piece) := do
  let (E, _) ← P.parts[c]?
  let ub ← computeUpperBound E first
  let idx := if ub ≠ 0 then ub - 1 else 0
  let st ← RunOps.init E idx
  let (s, st) ← RunOps.nextStart E P.n st 0
  let (e, st) ← RunOps.nextEnd E P.n st s
  let (next, st) ← RunOps.nextStart E P.n st e
  let (s, e, next, st) ← splitSkip E P.n first (E.size + 2) st s e next
  splitReport E P.n last c (E.size + 2) st (max first s) s e next

/-- splitInRuns(first, last, report) (psi.h:325-329) -/
def splitInRuns (P : PsiCoreRLE) (first last : Nat) : Option (List Piece) := do
  let ls ← (List.range P.parts.length).mapM (fun c => P.splitInRunsC c first last)
  return ls.flatten

/-- splitInSortedRuns (psi.h:307-317): the runs sorted by their first position (`Run::operator<`, sr_csa.h:318-320) -/
def splitInSortedRuns (P : PsiCoreRLE) (first last : Nat) : Option (List Piece) := do
  let ls ← P.splitInRuns first last
  return sortBy (fun x => x.first) ls

/-- the loop of computeForwardRuns with the final report (psi.h:410-420); `last` is already decremented -/
def forwardLoop (E : EncVector) (n last c : Nat) : Nat → RunOps → Nat → RunSel → Option (List Piece)
  | 0, _, _, _ => none
  | f + 1, st, first, run => do
    if run.rankEnd < last then
      let (s, st') ← RunOps.nextStart E n st run.stop
      let (e, st') ← RunOps.nextEnd E n st' s
      let d ← csub e s
      let rest ← forwardLoop E n last c f st' s { start := s, stop := e, rankEnd := run.rankEnd + d }
      return { first := first, last := run.stop, c := c, idx := st.soft, isFirst := decide (first = run.start) } :: rest
    else
      let v ← selValue run last
      return [{ first := first, last := v + 1, c := c, idx := st.soft, isFirst := decide (first = run.start) }]

/-- computeForwardRuns (psi.h:402-421): the ranks are `first, .., last - 1`, counted from 1 -/
def computeForwardRuns (P : PsiCoreRLE) (c first last : Nat) : Option (List Piece) := do
  let (E, ranks) ← P.parts[c]?
  let (run, st) ← selectCore E ranks P.n first
  let v ← selValue run first
  let last ← csub last 1
  forwardLoop E P.n last c (E.size + 1) st v run

/-- traverse (psi.h:424-437): the runs of a symbol -/
def traverseLoop (E : EncVector) (n : Nat) : Nat → RunOps → Nat → Nat → Option (List (Nat × Nat))
  | 0, _, _, _ => none
  | f + 1, st, s, e => do
    if s < n then
      let (s', st) ← RunOps.nextStart E n st e
      let (e', st) ← RunOps.nextEnd E n st s'
      let rest ← traverseLoop E n f st s' e'
      return (s, e) :: rest
    else return []

def traverse (P : PsiCoreRLE) (c : Nat) : Option (List (Nat × Nat)) := do
  let (E, _) ← P.parts[c]?
  let st ← RunOps.init E 0
  let (s, st) ← RunOps.nextStart E P.n st 0
  let (e, st) ← RunOps.nextEnd E P.n st s
  traverseLoop E P.n (E.size + 1) st s e

/-- countRuns (psi.h:443) -/
def countRuns (P : PsiCoreRLE) (c : Nat) : Option Nat := (P.parts[c]?).map (fun q => q.1.size / 2)

end PsiCoreRLE

/-- PsiCoreBV (psi.h:611-715) -/
structure PsiCoreBV where
  n : Nat
  first : Nat
  parts : List (List Bool)
deriving Repr, DecidableEq

namespace PsiCoreBV

/-- the constructor (psi.h:623-648); marking a position outside the bit vector is undefined -/
def buildLoop (n : Nat) (C psi : List Nat) : List Nat → Nat → List (List Bool) → Option (Nat × List (List Bool))
  | [], first, parts => some (first, parts)
  | i :: is, first, parts => do
    let sp ← C[i]?
    let ep ← C[i + 1]?
    let v ← psi[sp]?
    assertC (decide (ep ≤ psi.length))
    let bv ← bitVectorFromInts ((psi.drop sp).take (ep - sp)) n false
    let first := if v = 0 then i else first
    buildLoop n C psi is first (parts ++ [bv])

def build (C psi : List Nat) : Option PsiCoreBV := do
  let sigma ← csub C.length 1
  let n ← C[sigma]?
  let (first, parts) ← buildLoop n C psi (List.range sigma) 0 []
  return { n := n, first := first, parts := parts }

/-- select (psi.h:656) -/
def select (P : PsiCoreBV) (c rnk : Nat) : Option Nat := do
  let bv ← P.parts[c]?
  bvSelect bv rnk

/-- rank (psi.h:662) -/
def rank (P : PsiCoreBV) (c i : Nat) : Option Nat := do
  let bv ← P.parts[c]?
  bvRank bv i

/-- exist (psi.h:668) -/
def exist (P : PsiCoreBV) (c i : Nat) : Option Bool := do
  let bv ← P.parts[c]?
  bv[i]?

end PsiCoreBV

/-- computeCForSAIndex (psi.h:725-729) -/
def computeCForSAIndex (C : List Nat) (i : Nat) : Option Nat := csub (upperBound C i) 1

/-- Psi::operator() (psi.h:744-747) over a select function -/
def psiApply (select : Nat → Nat → Option Nat) (C : List Nat) (i : Nat) : Option Nat := do
  let c ← computeCForSAIndex C i
  let b ← C[c]?
  let d ← csub i b
  select c (d + 1)

end Sri

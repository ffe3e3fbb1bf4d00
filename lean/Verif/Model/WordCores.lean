import Verif.Model.Psi
import Verif.Model.RLEString
/-! # The run-length string and the psi core in 64-bit machine arithmetic

The operations of `RLEString` and `PsiCoreRLE` once more, with every `+`, `-`, `*`, `++`, `--` and `+=` on `std::size_t` taken modulo 2^64, in the
order of evaluation of the C++ expression, and with no fault on wrap-around. The names are those of the models with natural numbers followed by
`64`. The bit vectors, the wavelet tree and the coder of sdsl are the same as there; so are the numbers of rounds after which a loop of the model is
given up. -/
namespace Sri
set_option autoImplicit false

/-- `a + b` on `std::size_t` -/
def add64 (a b : Nat) : Nat := (a + b) % W64

/-- `a * b` on `std::size_t` -/
def mul64 (a b : Nat) : Nat := (a * b) % W64

namespace RLEString

/-- the recurring expression `(k == 0) ? 0 : select(k) + 1` (rle_string.hpp:747,771,798,960,1004) -/
def afterSelect64 (bv : List Bool) (k : Nat) : Option Nat :=
  if k = 0 then some 0 else (bvSelect bv k).map (fun e => add64 e 1)

/-- computeSymbolRunData (rle_string.hpp:999-1005) -/
def computeSymbolRunData64 (s : RLEString) (q : Nat) : Option RunData := do
  assertC (decide (q < s.r))
  let (run, c) ← wtInverseSelect s.runHeads q
  let bv ← s.perSym[c]?
  let start ← afterSelect64 bv run
  let stop ← (bvSelect bv (add64 run 1)).map (fun e => add64 e 1)
  return { rnk := run, c := c, start := start, stop := stop }

/-- computeBothRunData (rle_string.hpp:974-978) -/
def computeBothRunData64 (s : RLEString) (q qStart : Nat) : Option (RunData × RunData) := do
  let sym ← s.computeSymbolRunData64 q
  return ({ rnk := q, c := sym.c, start := qStart, stop := add64 qStart (wsub sym.stop sym.start) }, sym)

/-- computeRunData (rle_string.hpp:983-986) -/
def computeRunData64 (s : RLEString) (q qStart : Nat) : Option RunData := do
  let p ← s.computeBothRunData64 q qStart
  return p.1

/-- computeRunLength (rle_string.hpp:991-994) -/
def computeRunLength64 (s : RLEString) (q : Nat) : Option Nat := do
  let sym ← s.computeSymbolRunData64 q
  return wsub sym.stop sym.start

/-- the `while (run.end <= t_i)` loop of rankSoftBothRun (rle_string.hpp:962-964) -/
def advance64 (s : RLEString) (i : Nat) : Nat → RunData × RunData → Option (RunData × RunData)
  | 0, _ => none
  | fuel + 1, p =>
    if p.1.stop ≤ i then do
      let q ← s.computeBothRunData64 (add64 p.1.rnk 1) p.1.stop
      advance64 s i fuel q
    else some p

/-- rankSoftBothRun (rle_string.hpp:958-969) -/
def rankSoftBothRun64 (s : RLEString) (i : Nat) : Option (RunData × RunData) := do
  let block ← bvRank s.runs i
  let start ← afterSelect64 s.runs block
  let p ← s.computeBothRunData64 (mul64 block s.b) start
  let p ← advance64 s i (s.r + 1) p
  assertC (decide (p.1.start ≤ i ∧ i < p.1.stop))
  assertC (decide (p.1.rnk < s.r))
  return p

/-- rankSoftRun (rle_string.hpp:949-952) -/
def rankSoftRun64 (s : RLEString) (i : Nat) : Option RunData := do
  let p ← s.rankSoftBothRun64 i
  return p.1

/-- operator[] (rle_string.hpp:719-722) -/
def access64 (s : RLEString) (i : Nat) : Option Nat := do
  assertC (decide (i < s.size))
  let run ← s.rankSoftRun64 i
  s.runHeads[run.rnk]?

/-- the loop of select adding run lengths for runs `i .. stop-1` (rle_string.hpp:750-752) -/
def addRunLengths64 (s : RLEString) : Nat → Nat → Nat → Option Nat
  | 0, _, acc => some acc
  | k + 1, i, acc => do
    let l ← s.computeRunLength64 i
    addRunLengths64 s k (add64 i 1) (add64 acc l)

/-- select (rle_string.hpp:728-754), ranks from 1; the loop `for (i = block * b_; i < global_run; ++i)` has no round if it starts beyond -/
def select64 (s : RLEString) (rnk c : Nat) : Option Nat := do
  let bv ← s.perSym[c]?
  assertC (decide (1 ≤ rnk ∧ rnk ≤ bv.length))
  let rnk := wsub rnk 1
  let symbolRun ← bvRank bv rnk
  let runOffset ← (if symbolRun = 0 then some rnk else
    (bvSelect bv symbolRun).bind (fun e => some (wsub rnk (add64 e 1))) : Option Nat)
  let globalRun ← wtSelect s.runHeads (add64 symbolRun 1) c
  let block := globalRun / s.b
  let runStart ← afterSelect64 s.runs block
  let runStart ← s.addRunLengths64 (globalRun - mul64 block s.b) (mul64 block s.b) runStart
  return add64 runStart runOffset

/-- rank (rle_string.hpp:760-775) -/
def rank64 (s : RLEString) (i c : Nat) : Option Nat := do
  assertC (decide (i ≤ s.size))
  let bv ← s.perSym[c]?
  if bv.length = 0 then return 0
  else if i = s.size then return bv.length
  else
    let run ← s.rankSoftRun64 i
    let symbolRunRank ← wtRank s.runHeads run.rnk c
    let symbolRunStart ← afterSelect64 bv symbolRunRank
    let runOffset := if run.c = c then wsub i run.start else 0
    return add64 symbolRunStart runOffset

/-- rank with report (rle_string.hpp:784-810) -/
def rankReport64 (s : RLEString) (i c : Nat) : Option (Nat × Nat × Bool) := do
  assertC (decide (i ≤ s.size))
  let bv ← s.perSym[c]?
  if bv.length = 0 then return (0, 0, false)
  else if i = s.size then
    let rr ← bvRank bv bv.length
    return (bv.length, rr, false)
  else
    let (run, sym) ← s.rankSoftBothRun64 i
    if run.c = c then return (add64 sym.start (wsub i run.start), add64 sym.rnk 1, true)
    else
      let symRnk ← wtRank s.runHeads run.rnk c
      let symStart ← afterSelect64 bv symRnk
      return (add64 symStart 0, symRnk, false)

/-- report of `rank(t_i, report)` for the symbol at `t_i` (rle_string.hpp:818-826) -/
def rankAt64 (s : RLEString) (i : Nat) : Option (Nat × Nat × Nat × Nat × Nat × Nat) := do
  assertC (decide (i < s.size))
  let (run, sym) ← s.rankSoftBothRun64 i
  return (add64 sym.start (wsub i run.start), run.c, run.rnk, run.start, run.stop, sym.rnk)

/-- the reporting loop of splitInRuns (rle_string.hpp:865-871) -/
def splitLoop64 (s : RLEString) (last : Nat) : Nat → RunData → Option (List RunData)
  | 0, _ => none
  | fuel + 1, run =>
    if run.stop < last then do
      let next ← s.computeRunData64 (add64 run.rnk 1) run.stop
      let rest ← splitLoop64 s last fuel next
      return run :: rest
    else some [run]

/-- splitInRuns with report (rle_string.hpp:859-872) -/
def splitInRuns64 (s : RLEString) (first last : Nat) : Option (List RunData) := do
  assertC (decide (first ≤ last ∧ last ≤ s.size))
  let run ← s.rankSoftRun64 first
  splitLoop64 s last (s.r + 1) run

end RLEString

/-! ## The psi core -/

/-- number of samples (psi.h:479, 511): `(size - 1) / dens + 1`; of an empty vector `size - 1` is 2^64 - 1 -/
def nSamples64 (E : EncVector) : Option Nat := do
  assertC (decide (E.dens ≠ 0))
  return add64 (wsub E.size 1 / E.dens) 1

namespace EncVector

/-- sample (enc_vector.hpp:203-209): `i<<1` -/
def sample64 (E : EncVector) (i : Nat) : Option Nat := do
  assertC (decide (mul64 i E.dens < E.size))
  E.sp[mul64 2 i]?

end EncVector

namespace RunOps

/-- RunOps(t_values, t_idx, t_n) (psi.h:508-512, DecodeUInt 492-495) -/
def init64 (E : EncVector) (idx : Nat) : Option RunOps := do
  let p ← E.sp[add64 (mul64 2 idx) 1]?
  return { left := 0, idx := idx, ptr := p, soft := 0 }

/-- nextStart (psi.h:514-532) -/
def nextStart64 (E : EncVector) (n : Nat) (st : RunOps) (runEnd : Nat) : Option (Nat × RunOps) := do
  if st.left ≠ 0 then
    let (d, p) ← eliasDecode E.z st.ptr
    return (add64 runEnd d, { st with soft := add64 st.soft 1, left := wsub st.left 1, ptr := p })
  else
    let m ← nSamples64 E
    if st.idx < m then
      let left := wsub (min E.dens (wsub E.size (mul64 st.idx E.dens)) / 2) 1
      let v ← E.sp[mul64 2 st.idx]?
      return (v, { st with soft := mul64 st.idx E.dens / 2, left := left, idx := add64 st.idx 1 })
    else return (n, { st with soft := E.size / 2 })

/-- nextEnd (psi.h:534-536) -/
def nextEnd64 (E : EncVector) (n : Nat) (st : RunOps) (runStart : Nat) : Option (Nat × RunOps) := do
  if runStart ≠ n then
    let (d, p) ← eliasDecode E.z st.ptr
    return (add64 runStart d, { st with ptr := p })
  else return (n, st)

end RunOps

/-- computeUpperBound (psi.h:478-488) -/
def computeUpperBound64 (E : EncVector) (v : Nat) : Option Nat := do
  let m ← nSamples64 E
  let samples ← (List.range m).mapM E.sample64
  return upperBound samples v

namespace PsiCoreRLE

/-- the loop of selectCore (psi.h:582-587) -/
def selectLoop64 (E : EncVector) (n rnk : Nat) : Nat → RunOps → Nat → Nat → Option (RunSel × RunOps)
  | 0, _, _, _ => none
  | f + 1, st, runEnd, rank => do
    let (s, st) ← RunOps.nextStart64 E n st runEnd
    let (e, st) ← RunOps.nextEnd64 E n st s
    let rank := add64 rank (wsub e s)
    if rank ≤ rnk then selectLoop64 E n rnk f st e rank
    else return ({ start := s, stop := e, rankEnd := rank }, st)

/-- selectCore (psi.h:568-590): `--t_rnk` -/
def selectCore64 (E : EncVector) (ranks : List Nat) (n rnk : Nat) : Option (RunSel × RunOps) := do
  let rnk := wsub rnk 1
  let idx := upperBound ranks rnk
  let rank := if idx ≠ 0 then ranks.getD (wsub idx 1) 0 else 0
  let st ← RunOps.init64 E idx
  selectLoop64 E n rnk (E.size + 1) st 0 rank

/-- `run.end - 1 - (run.rank_end - t_rnk)` (psi.h:120, 134, 407, 419) -/
def selValue64 (run : RunSel) (rnk : Nat) : Nat := wsub (wsub run.stop 1) (wsub run.rankEnd rnk)

/-- select(c, rnk) (psi.h:115-121) -/
def select64 (P : PsiCoreRLE) (c rnk : Nat) : Option Nat := do
  let (E, ranks) ← P.parts[c]?
  let (run, _) ← selectCore64 E ranks P.n rnk
  return selValue64 run rnk

/-- select(c, rnk, report) (psi.h:127-135) -/
def selectReport64 (P : PsiCoreRLE) (c rnk : Nat) : Option (Nat × Nat × Nat × Nat) := do
  let (E, ranks) ← P.parts[c]?
  let (run, st) ← selectCore64 E ranks P.n rnk
  return (selValue64 run rnk, run.start, run.stop, st.soft)

/-- the do-while loop of rank (psi.h:155-159) -/
def rankLoop64 (E : EncVector) (n v : Nat) : Nat → RunOps → Nat → Nat → Option (Nat × Nat)
  | 0, _, _, _ => none
  | f + 1, st, s, rank => do
    let (e, st) ← RunOps.nextEnd64 E n st s
    let rank := add64 rank (wsub e s)
    if e < v then
      let (s', st) ← RunOps.nextStart64 E n st e
      if s' < v then rankLoop64 E n v f st s' rank else return (e, rank)
    else return (e, rank)

/-- `idx ? ranks[idx - 1] : 0` (psi.h:149, 182) -/
def sampleRank64 (ranks : List Nat) (idx : Nat) : Option Nat := if idx ≠ 0 then ranks[wsub idx 1]? else some 0

/-- rank(c, v) (psi.h:141-163) -/
def rank64 (P : PsiCoreRLE) (c v : Nat) : Option Nat := do
  assertC (decide (v ≤ P.n))
  let (E, ranks) ← P.parts[c]?
  let ub ← computeUpperBound64 E v
  if ub = 0 then return 0
  else
    let idx := wsub ub 1
    let rank ← sampleRank64 ranks idx
    let st ← RunOps.init64 E idx
    let (s, st) ← RunOps.nextStart64 E P.n st 0
    let (e, rank) ← rankLoop64 E P.n v (E.size + 1) st s rank
    return if v < e then wsub rank (wsub e v) else rank

/-- the loop of rank with report (psi.h:188-192) -/
def rankReportLoop64 (E : EncVector) (n v : Nat) : Nat → RunOps → Nat → Nat → Nat → Option (Nat × Nat × Nat × RunOps)
  | 0, _, _, _, _ => none
  | f + 1, st, s, e, rank => do
    if e ≤ v then
      let rank := add64 rank (wsub e s)
      let (s', st) ← RunOps.nextStart64 E n st e
      let (e', st) ← RunOps.nextEnd64 E n st s'
      rankReportLoop64 E n v f st s' e' rank
    else return (rank, s, e, st)

/-- rank(c, v, report) (psi.h:171-200): `--t_value` before the search of the last position, `++t_value` after it -/
def rankReport64 (P : PsiCoreRLE) (c v : Nat) : Option (Nat × Nat × Nat × Nat) := do
  assertC (decide (v ≤ P.n))
  let (E, ranks) ← P.parts[c]?
  let isLast := decide (v = P.n)
  let w := if isLast then wsub v 1 else v
  let ub ← computeUpperBound64 E w
  let idx := if ub ≠ 0 then wsub ub 1 else 0
  let rank ← sampleRank64 ranks idx
  let st ← RunOps.init64 E idx
  let (s, st) ← RunOps.nextStart64 E P.n st 0
  let (e, st) ← RunOps.nextEnd64 E P.n st s
  let (rank, s, e, st) ← rankReportLoop64 E P.n w (E.size + 1) st s e rank
  let v := if isLast then add64 w 1 else w
  return ((if s < v then add64 rank (wsub v s) else rank), s, e, st.soft)

/-- the loop of rankSoftRun(c, v) (psi.h:263-269): `left` is n_runs_to_next_sample -/
def softLoop64 (E : EncVector) (v : Nat) : Nat → Nat → Nat → Nat → Nat → Option (Nat × Nat × Nat)
  | 0, _, s, e, runs => some (runs, s, e)
  | left + 1, ptr, s, e, runs => do
    if e < v then
      let (g, ptr) ← eliasDecode E.z ptr
      let next := add64 e g
      if next ≤ v then
        let (l, ptr) ← eliasDecode E.z ptr
        softLoop64 E v left ptr next (add64 next l) (add64 runs 1)
      else return (runs, s, e)
    else return (runs, s, e)

/-- rankSoftRun(c, v) (psi.h:242-272) -/
def rankSoftRunC64 (P : PsiCoreRLE) (c v : Nat) : Option (Nat × Nat) := do
  let (E, _) ← P.parts[c]?
  let ub ← computeUpperBound64 E v
  if ub = 0 then return (0, P.n)
  else
    let idx := wsub ub 1
    let s ← E.sp[mul64 2 idx]?
    let runs := add64 (mul64 idx E.dens / 2) 1
    if s = v then return (runs, s)
    else
      let ptr ← E.sp[add64 (mul64 2 idx) 1]?
      let (l, ptr) ← eliasDecode E.z ptr
      let left := wsub (min E.dens (wsub E.size (mul64 idx E.dens)) / 2) 1
      let (runs, s, e) ← softLoop64 E v left ptr s (add64 s l) runs
      return (runs, if v < e then s else P.n)

/-- rankSoftRun(v) (psi.h:225-236): the loop over the symbols -/
def softRunLoop64 (P : PsiCoreRLE) (v : Nat) : List Nat → Nat → Nat → Option (Nat × Nat)
  | [], runs, start => some (runs, start)
  | i :: is, runs, start => do
    let (k, s) ← P.rankSoftRunC64 i v
    softRunLoop64 P v is (add64 runs k) (if s ≠ P.n then s else start)

def rankSoftRun64 (P : PsiCoreRLE) (v : Nat) : Option (Nat × Nat) :=
  softRunLoop64 P v (List.range P.parts.length) 0 P.n

/-- exist (psi.h:206-210) -/
def exist64 (P : PsiCoreRLE) (c v : Nat) : Option Bool := do
  let (_, s) ← P.rankSoftRunC64 c v
  return decide (s ≠ P.n)

/-- rankRun (psi.h:215-220) -/
def rankRun64 (P : PsiCoreRLE) (v : Nat) : Option Nat := do
  let (runs, s) ← P.rankSoftRun64 v
  return if v ≠ P.n ∧ s = v then wsub runs 1 else runs

/-- the loop of rankCharRun (psi.h:279-281) -/
def charRunLoop64 (P : PsiCoreRLE) : List Nat → Nat → Option Nat
  | [], runs => some runs
  | i :: is, runs => do
    let q ← P.parts[i]?
    charRunLoop64 P is (add64 runs (q.1.size / 2))

/-- rankCharRun (psi.h:277-284) -/
def rankCharRun64 (P : PsiCoreRLE) (c : Nat) : Option Nat := P.charRunLoop64 (List.range c) 0

/-- the first loop of splitInRuns (psi.h:352-357) -/
def splitSkip64 (E : EncVector) (n first : Nat) : Nat → RunOps → Nat → Nat → Nat → Option (Nat × Nat × Nat × RunOps)
  | 0, _, _, _, _ => none
  | f + 1, st, s, e, next => do
    if e ≤ first then
      let (e', st) ← RunOps.nextEnd64 E n st next
      let (next', st) ← RunOps.nextStart64 E n st e'
      splitSkip64 E n first f st next e' next'
    else return (s, e, next, st)

/-- the second loop of splitInRuns with the final report (psi.h:362-375) -/
def splitReport64 (E : EncVector) (n last c : Nat) : Nat → RunOps → Nat → Nat → Nat → Nat → Option (List Piece)
  | 0, _, _, _, _, _ => none
  | f + 1, st, first, s, e, next => do
    if next < last then
      let (e', st') ← RunOps.nextEnd64 E n st next
      let (next', st') ← RunOps.nextStart64 E n st' e'
      let rest ← splitReport64 E n last c f st' next next e' next'
      return { first := first, last := e, c := c, idx := wsub st.soft 1, isFirst := decide (first = s) } :: rest
    else
      if first < min last e then
        return [{ first := first, last := min last e, c := c, idx := wsub st.soft 1, isFirst := decide (first = s) }]
      else return []

/-- splitInRuns(c, first, last, report) (psi.h:338-376) -/
def splitInRunsC64 (P : PsiCoreRLE) (c first last : Nat) : Option (List Piece) := do
  let (E, _) ← P.parts[c]?
  let ub ← computeUpperBound64 E first
  let idx := if ub ≠ 0 then wsub ub 1 else 0
  let st ← RunOps.init64 E idx
  let (s, st) ← RunOps.nextStart64 E P.n st 0
  let (e, st) ← RunOps.nextEnd64 E P.n st s
  let (next, st) ← RunOps.nextStart64 E P.n st e
  let (s, e, next, st) ← splitSkip64 E P.n first (E.size + 2) st s e next
  splitReport64 E P.n last c (E.size + 2) st (max first s) s e next

/-- splitInRuns(first, last, report) (psi.h:325-329) -/
def splitInRuns64 (P : PsiCoreRLE) (first last : Nat) : Option (List Piece) := do
  let ls ← (List.range P.parts.length).mapM (fun c => P.splitInRunsC64 c first last)
  return ls.flatten

/-- splitInSortedRuns (psi.h:307-317) -/
def splitInSortedRuns64 (P : PsiCoreRLE) (first last : Nat) : Option (List Piece) := do
  let ls ← P.splitInRuns64 first last
  return sortBy (fun x => x.first) ls

/-- the loop of computeForwardRuns with the final report (psi.h:410-420) -/
def forwardLoop64 (E : EncVector) (n last c : Nat) : Nat → RunOps → Nat → RunSel → Option (List Piece)
  | 0, _, _, _ => none
  | f + 1, st, first, run => do
    if run.rankEnd < last then
      let (s, st') ← RunOps.nextStart64 E n st run.stop
      let (e, st') ← RunOps.nextEnd64 E n st' s
      let rest ← forwardLoop64 E n last c f st' s { start := s, stop := e, rankEnd := add64 run.rankEnd (wsub e s) }
      return { first := first, last := run.stop, c := c, idx := st.soft, isFirst := decide (first = run.start) } :: rest
    else
      return [{ first := first, last := add64 (selValue64 run last) 1, c := c, idx := st.soft, isFirst := decide (first = run.start) }]

/-- computeForwardRuns (psi.h:402-421) -/
def computeForwardRuns64 (P : PsiCoreRLE) (c first last : Nat) : Option (List Piece) := do
  let (E, ranks) ← P.parts[c]?
  let (run, st) ← selectCore64 E ranks P.n first
  forwardLoop64 E P.n (wsub last 1) c (E.size + 1) st (selValue64 run first) run

/-- the loop of traverse (psi.h:431-436) -/
def traverseLoop64 (E : EncVector) (n : Nat) : Nat → RunOps → Nat → Nat → Option (List (Nat × Nat))
  | 0, _, _, _ => none
  | f + 1, st, s, e => do
    if s < n then
      let (s', st) ← RunOps.nextStart64 E n st e
      let (e', st) ← RunOps.nextEnd64 E n st s'
      let rest ← traverseLoop64 E n f st s' e'
      return (s, e) :: rest
    else return []

/-- traverse (psi.h:424-437) -/
def traverse64 (P : PsiCoreRLE) (c : Nat) : Option (List (Nat × Nat)) := do
  let (E, _) ← P.parts[c]?
  let st ← RunOps.init64 E 0
  let (s, st) ← RunOps.nextStart64 E P.n st 0
  let (e, st) ← RunOps.nextEnd64 E P.n st s
  traverseLoop64 E P.n (E.size + 1) st s e

end PsiCoreRLE
end Sri

import Verif.Model.Sdsl
/-! # rle_string.hpp, class RLEString (lines 656-1071) -/
namespace Sri
set_option autoImplicit false

/-- Members of RLEString (rle_string.hpp:1064-1070): number of runs, block size, run heads,
    block-end marks, and for each symbol the run-end marks of the symbol's occurrences.
    The wavelet tree and the bit vectors are represented by the sequences they hold. -/
structure RLEString where
  r : Nat
  b : Nat
  runHeads : List Nat
  runs : List Bool
  perSym : List (List Bool)
deriving Repr, DecidableEq

/-- What the constructor's loop pushes, in order (rle_string.hpp:676-700). -/
structure RLEEmit where
  /-- pushes on `run_heads_vec` -/
  heads : List Nat
  /-- pushes on `runs_vec` -/
  runs : List Bool
  /-- pushes on `runs_per_symbol_map[symbol]`, as (symbol, bit) -/
  per : List (Nat × Bool)
  /-- final value of `r_` -/
  r : Nat

/-- Constructor loop (rle_string.hpp:676-698): `symbol` is the current run's symbol, `r` the runs closed so far. -/
def RLEString.emit (b : Nat) (symbol r : Nat) : List Nat → RLEEmit
  | [] => { heads := [symbol], runs := [false], per := [(symbol, true)], r := r + 1 }
  | next :: rest =>
    if symbol ≠ next then
      let e := RLEString.emit b next (r + 1) rest
      { heads := symbol :: e.heads, runs := (r % b == b - 1) :: e.runs,
        per := (symbol, true) :: e.per, r := e.r }
    else
      let e := RLEString.emit b symbol r rest
      { e with runs := false :: e.runs, per := (symbol, false) :: e.per }

/-- Constructor (rle_string.hpp:667-712). The `std::map` of per-symbol bits becomes, for each symbol up to
    the largest one, the bits pushed for it. `b = 0` would evaluate `r_ % 0` (fault). -/
def RLEString.build (xs : List Nat) (b : Nat) : Option RLEString :=
  match xs with
  | [] => none
  | x :: rest =>
    if b = 0 then none else
    let e := RLEString.emit b x 0 rest
    let top := (e.per.map (·.1)).foldl max 0
    some { r := e.r, b := b, runHeads := e.heads, runs := e.runs,
           perSym := (List.range (top + 1)).map
             (fun c => (e.per.filter (fun q => q.1 == c)).map (·.2)) }

namespace RLEString

/-- RunData (rle_string.hpp:937-943) -/
structure RunData where
  rnk : Nat
  c : Nat
  start : Nat
  stop : Nat
deriving Repr, DecidableEq

/-- the recurring expression `(k == 0) ? 0 : select(k) + 1` (rle_string.hpp:747,771,798,960,1004) -/
def afterSelect (bv : List Bool) (k : Nat) : Option Nat :=
  if k = 0 then some 0 else (bvSelect bv k).map (· + 1)

/-- size() (rle_string.hpp:714) -/
def size (s : RLEString) : Nat := s.runs.length

/-- computeSymbolRunData (rle_string.hpp:999-1005) -/
def computeSymbolRunData (s : RLEString) (q : Nat) : Option RunData := do
  assertC (decide (q < s.r))
  let (run, c) ← wtInverseSelect s.runHeads q
  let bv ← s.perSym[c]?
  let start ← afterSelect bv run
  let stop ← (bvSelect bv (run + 1)).map (· + 1)
  return { rnk := run, c := c, start := start, stop := stop }

/-- computeBothRunData (rle_string.hpp:974-978) -/
def computeBothRunData (s : RLEString) (q qStart : Nat) : Option (RunData × RunData) := do
  let sym ← s.computeSymbolRunData q
  let len ← csub sym.stop sym.start
  return ({ rnk := q, c := sym.c, start := qStart, stop := qStart + len }, sym)

/-- computeRunData (rle_string.hpp:983-986) -/
def computeRunData (s : RLEString) (q qStart : Nat) : Option RunData := do
  let p ← s.computeBothRunData q qStart
  return p.1

/-- computeRunLength (rle_string.hpp:991-994) -/
def computeRunLength (s : RLEString) (q : Nat) : Option Nat := do
  let sym ← s.computeSymbolRunData q
  csub sym.stop sym.start

/-- the `while (run.end <= t_i)` loop of rankSoftBothRun (rle_string.hpp:962-964) -/
def advance (s : RLEString) (i : Nat) : Nat → RunData × RunData → Option (RunData × RunData)
  | 0, _ => none
  | fuel + 1, p =>
    if p.1.stop ≤ i then do
      let q ← s.computeBothRunData (p.1.rnk + 1) p.1.stop
      advance s i fuel q
    else some p

/-- rankSoftBothRun (rle_string.hpp:958-969) -/
def rankSoftBothRun (s : RLEString) (i : Nat) : Option (RunData × RunData) := do
  let block ← bvRank s.runs i
  let start ← afterSelect s.runs block
  let p ← s.computeBothRunData (block * s.b) start
  let p ← advance s i (s.r + 1) p
  assertC (decide (p.1.start ≤ i ∧ i < p.1.stop))
  assertC (decide (p.1.rnk < s.r))
  return p

/-- rankSoftRun (rle_string.hpp:949-952) -/
def rankSoftRun (s : RLEString) (i : Nat) : Option RunData := do
  let p ← s.rankSoftBothRun i
  return p.1

/-- operator[] (rle_string.hpp:719-722) -/
def access (s : RLEString) (i : Nat) : Option Nat := do
  assertC (decide (i < s.size))
  let run ← s.rankSoftRun i
  s.runHeads[run.rnk]?

/-- the loop of select adding run lengths for runs `i .. stop-1` (rle_string.hpp:750-752) -/
def addRunLengths (s : RLEString) : Nat → Nat → Nat → Option Nat
  | 0, _, acc => some acc
  | k + 1, i, acc => do
    let l ← s.computeRunLength i
    addRunLengths s k (i + 1) (acc + l)

/-- select (rle_string.hpp:728-754), ranks from 1 -/
def select (s : RLEString) (rnk c : Nat) : Option Nat := do
  let bv ← s.perSym[c]?
  assertC (decide (1 ≤ rnk ∧ rnk ≤ bv.length))
  let rnk := rnk - 1
  let symbolRun ← bvRank bv rnk
  let runOffset ← (if symbolRun = 0 then some rnk else
    (bvSelect bv symbolRun).bind (fun e => csub rnk (e + 1)) : Option Nat)
  let globalRun ← wtSelect s.runHeads (symbolRun + 1) c
  let block := globalRun / s.b
  let runStart ← afterSelect s.runs block
  let runStart ← s.addRunLengths (globalRun - block * s.b) (block * s.b) runStart
  return runStart + runOffset

/-- rank (rle_string.hpp:760-775) -/
def rank (s : RLEString) (i c : Nat) : Option Nat := do
  assertC (decide (i ≤ s.size))
  let bv ← s.perSym[c]?
  if bv.length = 0 then return 0
  else if i = s.size then return bv.length
  else
    let run ← s.rankSoftRun i
    let symbolRunRank ← wtRank s.runHeads run.rnk c
    let symbolRunStart ← afterSelect bv symbolRunRank
    let runOffset ← (if run.c = c then csub i run.start else some 0 : Option Nat)
    return symbolRunStart + runOffset

/-- rank with report (rle_string.hpp:784-810): `(rank, symbol run rank, position is covered by a `c` run)` -/
def rankReport (s : RLEString) (i c : Nat) : Option (Nat × Nat × Bool) := do
  assertC (decide (i ≤ s.size))
  let bv ← s.perSym[c]?
  if bv.length = 0 then return (0, 0, false)
  else if i = s.size then
    let rr ← bvRank bv bv.length
    return (bv.length, rr, false)
  else
    let (run, sym) ← s.rankSoftBothRun i
    if run.c = c then
      let off ← csub i run.start
      return (sym.start + off, sym.rnk + 1, true)
    else
      let symRnk ← wtRank s.runHeads run.rnk c
      let symStart ← afterSelect bv symRnk
      return (symStart, symRnk, false)

/-- report of `rank(t_i, report)` for the symbol at `t_i` (rle_string.hpp:818-826):
    `(rank, c, run rank, run start, run end, symbol run rank)` -/
def rankAt (s : RLEString) (i : Nat) : Option (Nat × Nat × Nat × Nat × Nat × Nat) := do
  assertC (decide (i < s.size))
  let (run, sym) ← s.rankSoftBothRun i
  let off ← csub i run.start
  return (sym.start + off, run.c, run.rnk, run.start, run.stop, sym.rnk)

/-- selectOnRuns (rle_string.hpp:832-836) -/
def selectOnRuns (s : RLEString) (runRnk c : Nat) : Option Nat := do
  let bv ← s.perSym[c]?
  let total ← bvRank bv bv.length
  assertC (decide (1 ≤ runRnk ∧ runRnk ≤ total))
  wtSelect s.runHeads runRnk c

/-- the reporting loop of splitInRuns (rle_string.hpp:865-871) -/
def splitLoop (s : RLEString) (last : Nat) : Nat → RunData → Option (List RunData)
  | 0, _ => none
  | fuel + 1, run =>
    if run.stop < last then do
      let next ← s.computeRunData (run.rnk + 1) run.stop
      let rest ← splitLoop s last fuel next
      return run :: rest
    else some [run]

/-- splitInRuns with report (rle_string.hpp:859-872): reported runs in order -/
def splitInRuns (s : RLEString) (first last : Nat) : Option (List RunData) := do
  assertC (decide (first ≤ last ∧ last ≤ s.size))
  let run ← s.rankSoftRun first
  splitLoop s last (s.r + 1) run

end RLEString
end Sri

import Verif.Model.SrCSA
import Verif.Model.Bwt
/-! # The loops whose counter is an `int`

`++i` on an `int` that holds `INT_MAX` is undefined behaviour; the comparisons `i < n` convert the counter to an unsigned 64-bit word, which
is exact as long as it is not negative. The other models use natural numbers for these counters; here they are `int`s. -/
namespace Sri
set_option autoImplicit false

/-- `INT_MAX` of a 32-bit `int` -/
def intMax : Nat := 2147483647

/-- `++i` on a non-negative `int` -/
def intInc (i : Nat) : Option Nat := if i < intMax then some (i + 1) else none

/-- conversion of a `std::size_t` to `int` (sr_csa.h:531); a value that does not fit is implementation-defined and taken for a fault -/
def toInt (i : Nat) : Option Nat := if i ≤ intMax then some i else none

/-- the loop `for (int i = 1; i < n; ++i)` of constructBWTRuns (construct_sdsl.h:87-110), as `bwtRunsLoop` -/
def bwtRunsLoopInt (n : Nat) : Nat → Nat → Nat → List (Nat × Nat) → Option BWTRuns
  | _, _, prevPos, [] => some { first := [], firstTextPos := [], last := [n - 1], lastTextPos := [prevPos] }
  | i, prevSym, prevPos, (sym, pos) :: rest => do
    let i' ← intInc i
    if sym ≠ prevSym then
      let e ← bwtRunsLoopInt n i' sym pos rest
      return { first := i :: e.first, firstTextPos := pos :: e.firstTextPos,
               last := (i - 1) :: e.last, lastTextPos := prevPos :: e.lastTextPos }
    else bwtRunsLoopInt n i' prevSym pos rest

/-- constructBWTRuns (construct_sdsl.h:43-119) with its `int` counter -/
def constructBWTRunsInt (bwt sa : List Nat) : Option BWTRuns :=
  match (bwt.zip (sa.map (bwtTextPos bwt.length))) with
  | [] => none
  | (sym, pos) :: rest => do
    let e ← bwtRunsLoopInt bwt.length 1 sym pos rest
    return { e with first := 0 :: e.first, firstTextPos := pos :: e.firstTextPos }

/-- constructIndexBaseItems (construct_sdsl.h:121-160) with that loop, as `constructBase` -/
def constructBaseInt (T sa : List Nat) : Option BaseItems := do
  let bwt := constructBWT T sa
  let runs ← constructBWTRunsInt bwt sa
  let a := Alphabet.build bwt
  let rle ← RLEString.build (bwt.map a.char2comp) 2
  return { n := bwt.length, alphabet := a, bwtRle := rle, runs := runs }

/-- the loop `for (int i = 1; i <= last_pos; ++i)` of computeBWT (bwt.h:42-62), as `computeBWTLoop` -/
def computeBWTLoopInt (n : Nat) (sa T : List Nat) : Nat → Nat → Nat → Nat → Nat → Option BWTReport
  | 0, _, nRuns, sym, pos => some { bwt := [], first := [], last := [{ run := nRuns, pos := n - 1, sym := sym, textPos := pos }], runs := nRuns + 1 }
  | m + 1, i, nRuns, prevSym, prevPos => do
    let (sym, pos) ← bwtStep n sa T i
    let i' ← intInc i
    if sym ≠ prevSym then
      let e ← computeBWTLoopInt n sa T m i' (nRuns + 1) sym pos
      return { bwt := (i, sym) :: e.bwt, first := { run := nRuns + 1, pos := i, sym := sym, textPos := pos } :: e.first, last := { run := nRuns, pos := i - 1, sym := prevSym, textPos := prevPos } :: e.last, runs := e.runs }
    else
      let e ← computeBWTLoopInt n sa T m i' nRuns sym pos
      return { e with bwt := (i, sym) :: e.bwt }

/-- computeBWT (bwt.h:14-66) with its `int` counter -/
def computeBWTInt (n : Nat) (sa T : List Nat) : Option BWTReport := do
  assertC (decide (0 < n))
  let (sym, pos) ← bwtStep n sa T 0
  let e ← computeBWTLoopInt n sa T (n - 1) 1 0 sym pos
  return { e with bwt := (0, sym) :: e.bwt, first := { run := 0, pos := 0, sym := sym, textPos := pos } :: e.first }

/-- `for (int i = 0; i < v.size(); ++i) w[i] = f(v[i]);` (sr_index.h:636-638, sr_csa.h:1013-1016, sr_csa_psi.h:607-609), from `i` on -/
def fillLoopInt (f : Nat → Option Nat) : Nat → List Nat → Option (List Nat)
  | _, [] => some []
  | i, v :: vs => do
    let w ← f v
    let i' ← intInc i
    let ws ← fillLoopInt f i' vs
    return w :: ws

/-- computeSampleToMarkLinksForPhiBackward (sr_index.h:617-641): links of the kept samples among `r` runs -/
def sampleToMarkLinksBackwardInt (r : Nat) (idx : List Nat) : Option (List Nat) := fillLoopInt (fun i => cmod (i + 1) r) 0 idx

/-- the loop of constructSplitRangeInBWTRuns of SrCSA (sr_csa.h:531-538) with its `int` counter, as `SrCSA.cutLoop` -/
def cutLoopInt (I : SrCSA) (last : Nat) : Nat → Nat → Nat → Option (List FRun)
  | 0, _, runStart => some [{ start := runStart, stop := last, c := 0, rank := 0, isRunStart := false }]
  | k + 1, i, runStart => do
    let runEnd ← bvSelect I.samplesIdx i
    let i' ← intInc i
    let rest ← cutLoopInt I last k i' runEnd
    return { start := runStart, stop := runEnd, c := 0, rank := 0, isRunStart := false } :: rest

/-- constructSplitRangeInBWTRuns of SrCSA (sr_csa.h:517-543), as `SrCSA.cutRange` -/
def cutRangeInt (I : SrCSA) (first last : Nat) : Option (List FRun) := do
  let a ← bvRank I.samplesIdx (first + 1)
  let b ← bvRank I.samplesIdx last
  let i ← toInt (a + 1)
  cutLoopInt I last (b - a) i first

end Sri

import Verif.Model.Sparse
import Verif.Model.RLEString
/-! # rle_string.hpp, class rle_string (lines 42-650) with sparse_sd_vector and huff_string -/
namespace Sri
set_option autoImplicit false

/-- Members of rle_string (rle_string.hpp:632-645) -/
structure RleString where
  B : Nat
  runs : SparseBV
  perLetter : List SparseBV
  heads : List Nat
  n : Nat
  R : Nat
deriving Repr, DecidableEq

/-- `/` on unsigned integers: division by zero is undefined behaviour -/
def cdiv (a b : Nat) : Option Nat := if b = 0 then none else some (a / b)

namespace RleString

/-- what the loop of the constructor pushes (rle_string.hpp:73-101): `last` is the current run's letter, `r` the runs closed so far -/
def loop (B last r : Nat) : List Nat → RLEEmit
  | [] => { heads := [last], runs := [false], per := [(last, true)], r := r + 1 }
  | c :: rest =>
    if c ≠ last then
      let e := loop B c (r + 1) rest
      { heads := last :: e.heads, runs := (r % B == B - 1) :: e.runs, per := (last, true) :: e.per, r := e.r }
    else
      let e := loop B last r rest
      { e with runs := false :: e.runs, per := (last, false) :: e.per }

/-- count_runs (rle_string.hpp:570-582) -/
def countRuns : List Nat → Nat
  | [] => 1
  | [_] => 1
  | a :: b :: l => (if b ≠ a then 1 else 0) + countRuns (b :: l)

/-- constructor (rle_string.hpp:59-130) on a string of bytes, with its assertions. The first byte of an empty string is its terminating zero;
    `B = 0` divides by zero. -/
def build (input : List Nat) (B : Nat) : Option RleString := do
  assertC (input.all (fun c => c != 0))
  let e ← (match input with
    | [] => some (loop B 0 0 [])
    | c :: rest => if B = 0 ∧ rest.any (fun d => d != c) then none else some (loop B c 0 rest))
  assertC (decide (e.heads.length = e.r))
  assertC (decide (e.r = countRuns input))
  assertC (decide (e.runs.length = input.length))
  let letter := fun c => (e.per.filter (fun q => q.1 == c)).map (·.2)
  assertC (decide (((List.range 256).map (fun c => (letter c).length)).sum = input.length))
  let heads ← HuffString.build e.heads
  assertC (decide (heads.length = e.r))
  return { B := B, n := input.length, R := e.r, runs := (SparseBV.ofBools e.runs).assign,
           perLetter := (List.range 256).map (fun c => (SparseBV.ofBools (letter c)).assign), heads := heads }

/-- size (rle_string.hpp:373) -/
def size (s : RleString) : Nat := s.n

/-- number_of_runs (rle_string.hpp:412) -/
def numberOfRuns (s : RleString) : Nat := s.R

/-- run_at (rle_string.hpp:400-410) -/
def runAt (s : RleString) (i : Nat) : Option Nat := do
  assertC (decide (i < s.R))
  let c ← HuffString.access s.heads i
  let bv ← s.perLetter[c]?
  let k ← HuffString.rank s.heads i c
  bv.gapAt k

/-- the start of a block: `k == 0 ? 0 : runs.select(k - 1) + 1` (rle_string.hpp:160, 189-191, 237-239, 322, 384, 591-593) -/
def blockStart (s : RleString) (k : Nat) : Option Nat :=
  if k = 0 then some 0 else (s.runs.select (k - 1)).map (· + 1)

/-- the loop `while (pos < i)` of rank and run_of_position (rle_string.hpp:198-205, 246-253); that of run_of (597-602) is the same without
    `dist` -/
def scan (s : RleString) (i : Nat) : Nat → Nat → Nat → Nat → Option (Nat × Nat × Nat)
  | 0, _, _, _ => none
  | fuel + 1, pos, run, dist =>
    if pos < i then do
      let l ← s.runAt run
      let pos := pos + l
      scan s i fuel pos (run + 1) (if pos ≤ i then i - pos else dist)
    else some (pos, run, dist)

/-- the block and the loop, up to `if (pos > i) current_run--` (rle_string.hpp:185-210, 233-258): the run of position `i` and the distance from
    its start -/
def locateRun (s : RleString) (i : Nat) : Option (Nat × Nat) := do
  let block ← s.runs.rank i
  let pos ← s.blockStart block
  assertC (decide (pos ≤ i))
  let (pos, run, dist) ← s.scan i (s.R + 1) pos (block * s.B) (i - pos)
  let run ← (if pos > i then csub run 1 else some run)
  assertC (decide (run < s.R))
  return (run, dist)

/-- run_of_position (rle_string.hpp:229-262) -/
def runOfPosition (s : RleString) (i : Nat) : Option Nat := do
  assertC (decide (i < s.n))
  let q ← s.locateRun i
  return q.1

/-- run_of (rle_string.hpp:585-621) and get_run_of (369-371) -/
def runOf (s : RleString) (i : Nat) : Option (Nat × Nat) := do
  let block ← s.runs.rank i
  let pos ← s.blockStart block
  assertC (decide (pos ≤ i))
  let (pos, run, _) ← s.scan i (s.R + 1) pos (block * s.B) (i - pos)
  assertC (decide (pos ≥ i))
  let (pos, run) ← (if pos > i then do
      let run ← csub run 1
      return (pos, run)
    else do
      let l ← s.runAt run
      return (pos + l, run) : Option (Nat × Nat))
  assertC (decide (pos > 0))
  assertC (decide (run < s.R))
  let last ← csub pos 1
  return (run, last)

/-- operator[] (rle_string.hpp:132-137) -/
def access (s : RleString) (i : Nat) : Option Nat := do
  assertC (decide (i < s.n))
  let q ← s.runOf i
  HuffString.access s.heads q.1

/-- adding the lengths of `k` runs from `i` on (rle_string.hpp:163-167, 386-391) -/
def addRuns (s : RleString) : Nat → Nat → Nat → Option Nat
  | 0, _, acc => some acc
  | k + 1, i, acc => do
    let l ← s.runAt i
    addRuns s k (i + 1) (acc + l)

/-- select (rle_string.hpp:142-171), from 0 -/
def select (s : RleString) (i c : Nat) : Option Nat := do
  let bv ← s.perLetter[c]?
  assertC (decide (i < bv.size))
  let j ← bv.rank i
  let before ← (if j = 0 then some i else (bv.select (j - 1)).bind (fun e => csub i (e + 1)))
  let r ← HuffString.select s.heads j c
  let block ← cdiv r s.B
  let k ← s.blockStart block
  let k ← s.addRuns (r - block * s.B) (block * s.B) k
  return k + before

/-- rank (rle_string.hpp:176-224) -/
def rank (s : RleString) (i c : Nat) : Option Nat := do
  assertC (decide (i ≤ s.n))
  let bv ← s.perLetter[c]?
  if bv.size = 0 then return 0
  else if i = s.n then return bv.size
  else do
    let (run, dist) ← s.locateRun i
    let rk ← HuffString.rank s.heads run c
    let d ← HuffString.access s.heads run
    let tail := if d = c then dist else 0
    if rk = 0 then return tail
    else do
      let e ← bv.select (rk - 1)
      return e + 1 + tail

/-- run_range (rle_string.hpp:378-397) -/
def runRange (s : RleString) (j : Nat) : Option (Nat × Nat) := do
  assertC (decide (j < s.heads.length))
  let block ← cdiv j s.B
  let pos ← s.blockStart block
  let pos ← s.addRuns (j - block * s.B) (block * s.B) pos
  let l ← s.runAt j
  let last ← csub (pos + l) 1
  return (pos, last)

/-- break_range (rle_string.hpp:268-309) -/
def breakRange (s : RleString) (l r c : Nat) : Option (List (Nat × Nat)) := do
  assertC (decide (l ≤ r))
  assertC (decide (r < s.size))
  let cl ← s.access l
  assertC (decide (cl = c))
  let cr ← s.access r
  assertC (decide (cr = c))
  let runL ← s.runOf l
  let runR ← s.runOf r
  if runL.1 = runR.1 then return [(l, r)]
  else do
    let rankL ← HuffString.rank s.heads runL.1 c
    let rankR ← HuffString.rank s.heads runR.1 c
    let mid ← (List.range' (rankL + 1) (rankR - (rankL + 1))).mapM (fun j => do
      let run ← HuffString.select s.heads j c
      s.runRange run)
    let run ← HuffString.select s.heads rankR c
    let q ← s.runRange run
    return (l, runL.2) :: mid ++ [(q.1, r)]

/-- StringRun (rle_string.hpp:32-36) -/
structure StringRun where
  run : Nat
  c : Nat
  first : Nat
  last : Nat
deriving Repr, DecidableEq

/-- get_run_info of break_in_runs (rle_string.hpp:328-332) -/
def runInfo (s : RleString) (run : Nat) : Option (Nat × Nat) := do
  let (rk, c) ← HuffString.inverseSelect s.heads run
  let bv ← s.perLetter[c]?
  let l ← bv.gapAt rk
  return (c, l)

/-- the do-while loop of break_in_runs (rle_string.hpp:335-341): end, letter and number of the run after the loop -/
def findRun (s : RleString) (first : Nat) : Nat → Nat → Nat → Option (Nat × Nat × Nat)
  | 0, _, _ => none
  | fuel + 1, pos, run => do
    let (c, l) ← s.runInfo run
    let pos := pos + l
    if pos ≤ first then findRun s first fuel pos (run + 1) else return (pos, c, run + 1)

/-- the loop `while (pos <= last)` and the last report (rle_string.hpp:353-364) -/
def reportRuns (s : RleString) (last : Nat) : Nat → Nat → Nat → Nat → Nat → Option (List StringRun)
  | 0, _, _, _, _ => none
  | fuel + 1, prev, pos, c, run =>
    if pos ≤ last then do
      let e ← csub pos 1
      let (c', l) ← s.runInfo (run + 1)
      let rest ← reportRuns s last fuel pos (pos + l) c' (run + 1)
      return { run := run, c := c, first := prev, last := e } :: rest
    else return [{ run := run, c := c, first := prev, last := last }]

/-- break_in_runs (rle_string.hpp:311-367) -/
def breakInRuns (s : RleString) (first last : Nat) : Option (List StringRun) := do
  assertC (decide (first ≤ last))
  assertC (decide (last < s.size))
  let block ← s.runs.rank first
  let pos ← s.blockStart block
  assertC (decide (pos ≤ first))
  let (pos, c, run) ← s.findRun first (s.R + 1) pos (block * s.B)
  let run ← csub run 1
  assertC (decide (first < pos))
  let d ← s.access first
  assertC (decide (c = d))
  assertC (decide (run < s.R))
  s.reportRuns last (s.R + 1) first pos c run

/-- toString (rle_string.hpp:464-473) -/
def toString (s : RleString) : Option (List Nat) := (List.range s.size).mapM s.access

/-- closest_run_break (rle_string.hpp:528-566) -/
def closestRunBreak (s : RleString) (first last c : Nat) : Option Nat := do
  let d ← s.access first
  if d = c then do
    let i ← s.runOfPosition first
    let q ← s.runRange i
    assertC (decide (q.2 < last))
    return q.2
  else do
    let i ← s.rank first c
    let m ← s.rank s.size c
    assertC (decide (i < m))
    let i ← s.select i c
    let e ← s.access i
    assertC (decide (e = c))
    assertC (decide (i ≤ last))
    return i

end RleString
end Sri

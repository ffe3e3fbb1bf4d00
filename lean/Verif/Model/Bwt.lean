import Verif.Model.Sdsl
/-! # bwt.h: computeBWT, computeLF -/
namespace Sri
set_option autoImplicit false

/-- a run head or tail as computeBWT reports it: number of the run, BWT position, symbol, text position -/
structure RunReport where
  run : Nat
  pos : Nat
  sym : Nat
  textPos : Nat
deriving Repr, DecidableEq

/-- the calls of the three report functions of computeBWT, in order, and its result -/
structure BWTReport where
  bwt : List (Nat × Nat)
  first : List RunReport
  last : List RunReport
  runs : Nat
deriving Repr, DecidableEq

/-- get_text_pos (bwt.h:25-28) followed by t_get_text_at; reading outside the suffix array or the text is undefined -/
def bwtStep (n : Nat) (sa T : List Nat) (i : Nat) : Option (Nat × Nat) := do
  let p ← sa[i]?
  let q := if 0 < p then p - 1 else n - 1
  let c ← T[q]?
  return (c, q)

/-- the loop of computeBWT (bwt.h:42-62) from position `i` on, `m` positions to go; ends with the final report. The counter is a
    natural number here (it is an `int` in the code, see C40). -/
def computeBWTLoop (n : Nat) (sa T : List Nat) : Nat → Nat → Nat → Nat → Nat → Option BWTReport
  | 0, _, nRuns, sym, pos => some { bwt := [], first := [], last := [{ run := nRuns, pos := n - 1, sym := sym, textPos := pos }], runs := nRuns + 1 }
  | m + 1, i, nRuns, prevSym, prevPos => do
    let (sym, pos) ← bwtStep n sa T i
    if sym ≠ prevSym then
      let e ← computeBWTLoop n sa T m (i + 1) (nRuns + 1) sym pos
      return { bwt := (i, sym) :: e.bwt, first := { run := nRuns + 1, pos := i, sym := sym, textPos := pos } :: e.first, last := { run := nRuns, pos := i - 1, sym := prevSym, textPos := prevPos } :: e.last, runs := e.runs }
    else
      let e ← computeBWTLoop n sa T m (i + 1) nRuns sym pos
      return { e with bwt := (i, sym) :: e.bwt }

/-- computeBWT (bwt.h:14-66) -/
def computeBWT (n : Nat) (sa T : List Nat) : Option BWTReport := do
  assertC (decide (0 < n))
  let (sym, pos) ← bwtStep n sa T 0
  let e ← computeBWTLoop n sa T (n - 1) 1 0 sym pos
  return { e with bwt := (0, sym) :: e.bwt, first := { run := 0, pos := 0, sym := sym, textPos := pos } :: e.first }

/-- computeLF (bwt.h:69-94) with the functions `rank` and `f`; ranges are inclusive, `(1,0)` stands for the empty range. The
    subtraction `c_inside` wraps around when the second rank is the smaller one. `maxC` is max_c. -/
def computeLF (rank : Nat → Nat → Option Nat) (f : Nat → Option Nat) (range : Nat × Nat) (c n maxC : Nat) : Option (Nat × Nat) := do
  let p ← f c
  if c = maxC ∧ p = n then return (1, 0)
  else
    let p' ← f (c + 1)
    if p' ≤ p then return (1, 0)
    else
      let before ← rank range.1 c
      let upto ← rank (range.2 + 1) c
      let inside ← csub upto before
      if inside = 0 then return (1, 0)
      else return (p + before, p + before + inside - 1)

end Sri

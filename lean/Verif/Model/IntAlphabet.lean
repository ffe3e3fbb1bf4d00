import Verif.Model.RIndex
import Verif.Model.RLEElements
/-! # construct_sdsl.h with an integer alphabet (`t_width == 0`)

The templates accept two widths: 8, a text of bytes, and 0, a text of integers (construct_sdsl.h:22, 45, 127; alphabet.h gives
sdsl::int_alphabet for it). Everywhere else in this model the width is 8. The two instances of constructBWTRuns are the same text but not
the same program: `bwt_buf` is a non-constant sdsl::int_vector, whose `operator[]` returns `uint8_t &` for width 8 but a proxy object,
sdsl::int_vector_reference, for width 0. A variable declared with `auto` from it holds a byte in the first case and in the second a pointer to
a cell of `bwt_buf`; an assignment to that variable then writes into the cell. -/
namespace Sri
set_option autoImplicit false

/-- the cells of `bwt_buf`, and the cells to which the two variables `bwt_symbol` and `prev_bwt_symbol` refer -/
structure SymbolRefs where
  cells : List Nat
  symbol : Nat
  prev : Nat
deriving Repr, DecidableEq

/-- assignment of one sdsl::int_vector_reference to another copies the integer from cell `j` into cell `i`; a cell that does not exist is a
    fault -/
def assignCell (cells : List Nat) (i j : Nat) : Option (List Nat) := do
  let v ← cells[j]?
  assertC (decide (i < cells.length))
  return cells.set i v

/-- the loop of constructBWTRuns<0> from position `i` on (construct_sdsl.h:87-110), as `bwtRunsLoop`: the list has the text positions of the
    remaining entries; the symbols are read and written through the references -/
def bwtRunsLoopRef (n : Nat) : Nat → SymbolRefs → Nat → List Nat → Option BWTRuns
  | _, _, prevPos, [] => some { first := [], firstTextPos := [], last := [n - 1], lastTextPos := [prevPos] }
  | i, R, prevPos, pos :: rest => do
    let cells ← assignCell R.cells R.symbol i
    let sym ← cells[R.symbol]?
    let prev ← cells[R.prev]?
    if sym ≠ prev then
      let cells ← assignCell cells R.prev R.symbol
      let e ← bwtRunsLoopRef n (i + 1) { R with cells := cells } pos rest
      return { first := i :: e.first, firstTextPos := pos :: e.firstTextPos,
               last := (i - 1) :: e.last, lastTextPos := prevPos :: e.lastTextPos }
    else bwtRunsLoopRef n (i + 1) { R with cells := cells } pos rest

/-- constructBWTRuns<0> (construct_sdsl.h:43-123): `auto bwt_symbol = bwt_buf[0]` and `auto prev_bwt_symbol = bwt_symbol` are both
    references to cell 0 -/
def constructBWTRunsRef (bwt sa : List Nat) : Option BWTRuns := do
  assertC (decide (0 < bwt.length ∧ bwt.length ≤ sa.length))
  match (sa.take bwt.length).map (bwtTextPos bwt.length) with
  | [] => none
  | pos :: rest => do
    let e ← bwtRunsLoopRef bwt.length 1 { cells := bwt, symbol := 0, prev := 0 } pos rest
    return { e with first := 0 :: e.first, firstTextPos := pos :: e.firstTextPos }

/-- constructIndexBaseItems<0> (construct_sdsl.h:125-161) after the text and its suffix array. The alphabet (sdsl::int_alphabet) numbers the
    integers that occur in increasing order and sends the others to 0, as the byte alphabet does; constructBWTRLE reads the BWT through an
    sdsl::int_vector_buffer and compacts each symbol to a number (construct_base.h:73-93), so references are no concern there; but it always
    builds an `RLEString<>`, whose run heads are bytes. -/
def constructBaseRef (T sa : List Nat) : Option BaseItems := do
  let bwt := constructBWT T sa
  let runs ← constructBWTRunsRef bwt sa
  let a := Alphabet.build bwt
  let rle ← RLEString.buildByte (bwt.map a.char2comp) 2
  return { n := bwt.length, alphabet := a, bwtRle := rle, runs := runs }

end Sri

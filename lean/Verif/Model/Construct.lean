import Verif.Model.Alphabet
import Verif.Model.RLEString
/-! # construct_sdsl.h, construct_base.h, construct.h: items computed from the text and its suffix array

Files of the cache are modelled by the vectors they hold. `sdsl::construct_sa` and `sdsl::construct_bwt`
(construct_sdsl.h:137,143) are library code: the suffix array is an input of the model, constrained by `IsSA`, and the BWT is its
definition. Counters are unbounded naturals here (the `int` counters are treated with property C40). -/
namespace Sri
set_option autoImplicit false

/-- `std::sort` of indices by a key (construct.h:149-151, sr_index.h:674-678, psi.h:315). An insertion sort; whenever the keys are pairwise
    different (which is proved where it is used) every correct sort returns this list. -/
def insertBy {α : Type} (key : α → Nat) (x : α) : List α → List α
  | [] => [x]
  | y :: l => if key x < key y then x :: y :: l else y :: insertBy key x l

def sortBy {α : Type} (key : α → Nat) : List α → List α
  | [] => []
  | x :: l => insertBy key x (sortBy key l)

/-- sortIndices (construct.h:140-153): indices of the values, sorted by value -/
def sortIndices (vals : List Nat) : List Nat := sortBy (fun i => vals.getD i 0) (List.range vals.length)

/-- contract of sdsl::construct_bwt: `BWT[i] = T[SA[i]-1]`, circularly -/
def constructBWT (T sa : List Nat) : List Nat :=
  sa.map (fun p => T.getD ((p + T.length - 1) % T.length) 0)

/-- the lambda get_bwt_text_pos (construct_sdsl.h:62-65) -/
def bwtTextPos (n p : Nat) : Nat := if 0 < p then p - 1 else n - 1

/-- the four files constructBWTRuns writes (construct_sdsl.h:74-77) -/
structure BWTRuns where
  first : List Nat
  firstTextPos : List Nat
  last : List Nat
  lastTextPos : List Nat
deriving Repr, DecidableEq

/-- the loop of constructBWTRuns from position `i` on, over the remaining (symbol, text position) pairs; `prevSym`,
    `prevPos` are `prev_bwt_symbol`, `prev_text_pos` (construct_sdsl.h:87-110). Ends with the two final pushes. -/
def bwtRunsLoop (n : Nat) : Nat → Nat → Nat → List (Nat × Nat) → BWTRuns
  | _, _, prevPos, [] => { first := [], firstTextPos := [], last := [n - 1], lastTextPos := [prevPos] }
  | i, prevSym, prevPos, (sym, pos) :: rest =>
    if sym ≠ prevSym then
      let e := bwtRunsLoop n (i + 1) sym pos rest
      { first := i :: e.first, firstTextPos := pos :: e.firstTextPos,
        last := (i - 1) :: e.last, lastTextPos := prevPos :: e.lastTextPos }
    else bwtRunsLoop n (i + 1) prevSym pos rest

/-- constructBWTRuns (construct_sdsl.h:43-123). An empty BWT reads `bwt_buf[0]` out of range. -/
def constructBWTRuns (bwt sa : List Nat) : Option BWTRuns :=
  match (bwt.zip (sa.map (bwtTextPos bwt.length))) with
  | [] => none
  | (sym, pos) :: rest =>
    let e := bwtRunsLoop bwt.length 1 sym pos rest
    some { e with first := 0 :: e.first, firstTextPos := pos :: e.firstTextPos }

/-- constructBitVectorFromIntVector (construct.h:282-290): writing outside the vector is undefined -/
def bitVectorFromInts (vals : List Nat) (size : Nat) (init : Bool) : Option (List Bool) := do
  assertC (vals.all (fun v => decide (v < size)))
  return (List.range size).map (fun i => if i ∈ vals then !init else init)

/-- constructMarkToSampleLinksForPhiBackward (construct.h:242-256 with 155-166): the link of mark `k` is
    `(k + r - 1) % r`, listed in text order of the marks. First component: the sorted mark indices. -/
def linksPhiBackward (marks : List Nat) : List Nat × List Nat :=
  let idx := sortIndices marks
  (idx, idx.map (fun k => (k + marks.length - 1) % marks.length))

/-- everything constructIndexBaseItems leaves in the cache (construct_sdsl.h:126-161) that the indexes use -/
structure BaseItems where
  n : Nat
  alphabet : Alphabet
  bwtRle : RLEString
  runs : BWTRuns
deriving Repr, DecidableEq

/-- constructIndexBaseItems (construct_sdsl.h:126-161) after the text and its suffix array; constructBWTRLE
    (construct_base.h:73-93) builds the run-length string of the compacted BWT with the default block size 2
    (rle_string.hpp:667). -/
def constructBase (T sa : List Nat) : Option BaseItems := do
  let bwt := constructBWT T sa
  let runs ← constructBWTRuns bwt sa
  let a := Alphabet.build bwt
  let rle ← RLEString.build (bwt.map a.char2comp) 2
  return { n := bwt.length, alphabet := a, bwtRle := rle, runs := runs }

end Sri

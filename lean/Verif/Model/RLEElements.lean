import Verif.Model.RLEString
/-! # The constructor of RLEString and the type of the elements (rle_string.hpp:667-712, 911-935)

`Model/RLEString.lean` has sequences of natural numbers that the constructor copies. The constructor is a template over the iterator, and its
local `symbol`, the keys of its map and the elements of `run_heads_vec` have the type `decltype(symbol)` of `auto symbol = *t_first`. Three
kinds of iterators for which that is not a natural number held by value, or for which the number does not fit, are modelled here. -/
namespace Sri
set_option autoImplicit false

namespace RLEString

/-- The constructor with the default `TString`, sdsl::wt_huff<>, whose alphabet is bytes: constructRunHeads copies the heads into a std::string
    (rle_string.hpp:921-934), which keeps the low eight bits of each; the bit vectors per symbol are kept under the whole symbols. -/
def buildByte (xs : List Nat) (b : Nat) : Option RLEString := do
  let s ← build xs b
  return { s with runHeads := s.runHeads.map (· % 256) }

/-- The subscript of `runs_per_symbol_[item.first]` (rle_string.hpp:704) for a symbol that is a `char`: a negative one converts to a number
    close to 2^64, outside the vector, which is a fault. -/
def charIndex (c : Int) : Option Nat := if 0 ≤ c then some c.toNat else none

/-- The constructor over a std::string, where `symbol` is a `char`, signed as on x86. The loop compares symbols, which are equal exactly if
    their subscripts are; the only use of a symbol as a number is as a subscript. The run heads are copied to a std::string and are not
    negative when the subscripts are not. -/
def buildChar (xs : List Int) (b : Nat) : Option RLEString := do
  let ys ← xs.mapM charIndex
  buildByte ys b

/-- What the loop of the constructor holds when `*it` is a reference to a cell (sdsl::int_vector_reference): the cells of the caller's vector,
    and the map from symbols to bits, whose keys are references too: each entry has the cell its key refers to. `symbol` refers to cell 0
    from its initialisation on. -/
structure RefState where
  cells : List Nat
  map : List (Nat × List Bool)
  heads : List Nat
  runs : List Bool
  r : Nat
deriving Repr, DecidableEq

/-- `runs_per_symbol_map[symbol].push_back(bit)` with `symbol` a reference to cell 0: keys are compared by the integers in their cells at the
    time; a new entry takes a copy of the reference. (A tree with more than one entry whose keys change is not searched like this, but there is
    never more than one, as `refLoop_inv` proves.) -/
def mapPush (cells : List Nat) (bit : Bool) : List (Nat × List Bool) → List (Nat × List Bool)
  | [] => [(0, [bit])]
  | (k, bits) :: rest =>
    if cells.getD k 0 = cells.getD 0 0 then (k, bits ++ [bit]) :: rest else (k, bits) :: mapPush cells bit rest

/-- loop of the constructor from the element `i` on, `m` elements left (rle_string.hpp:676-691): `symbol = next_symbol` writes the integer of
    cell `i` into cell 0 -/
def refLoop (b : Nat) : Nat → Nat → RefState → RefState
  | 0, _, S => S
  | m + 1, i, S =>
    if S.cells.getD 0 0 ≠ S.cells.getD i 0 then
      refLoop b m (i + 1) { cells := S.cells.set 0 (S.cells.getD i 0), map := mapPush S.cells true S.map, heads := S.heads ++ [0],
                            runs := S.runs ++ [S.r % b == b - 1], r := S.r + 1 }
    else
      refLoop b m (i + 1) { S with map := mapPush S.cells false S.map, runs := S.runs ++ [false] }

/-- The constructor over the iterators of a non-constant sdsl::int_vector<> (rle_string.hpp:667-712): the string built and what the caller's
    vector then holds. The lines after the loop read every key and every run head through its reference. -/
def buildRef (xs : List Nat) (b : Nat) : Option (RLEString × List Nat) := do
  assertC (decide (xs ≠ [] ∧ 0 < b))
  let S := refLoop b (xs.length - 1) 1 { cells := xs, map := [], heads := [], runs := [], r := 0 }
  let map := mapPush S.cells true S.map
  let top := (map.map (fun q => S.cells.getD q.1 0)).foldl max 0
  return ({ r := S.r + 1, b := b, runHeads := (S.heads ++ [0]).map (fun k => S.cells.getD k 0), runs := S.runs ++ [false],
            perSym := (List.range (top + 1)).map (fun c => ((map.filter (fun q => S.cells.getD q.1 0 == c)).map (·.2)).flatten) },
          S.cells)

end RLEString
end Sri

import Verif.Model.Sdsl
/-! # sparse_sd_vector.hpp, sparse_hyb_vector.hpp, huff_string.hpp -/
namespace Sri
set_option autoImplicit false

/-- Members of sparse_sd_vector (sparse_sd_vector.hpp:229-233) and sparse_hyb_vector (sparse_hyb_vector.hpp:217-221): the length `u`, the bits,
    and whether the supports point to them (`bound`). -/
structure SparseBV where
  u : Nat
  bits : List Bool
  bound : Bool
deriving Repr, DecidableEq

namespace SparseBV

/-- the empty constructor (sparse_sd_vector.hpp:35) -/
def empty : SparseBV := { u := 0, bits := [], bound := false }

/-- constructor from std::vector<bool> (sparse_sd_vector.hpp:40-55) -/
def ofBools (b : List Bool) : SparseBV := if b.length = 0 then empty else { u := b.length, bits := b, bound := true }

/-- constructor from sdsl::bit_vector (sparse_sd_vector.hpp:60-66): it does not set `u` -/
def ofBitVector (bv : List Bool) : SparseBV := { u := 0, bits := bv, bound := true }

/-- operator= (sparse_sd_vector.hpp:68-76) -/
def assign (other : SparseBV) : SparseBV := { u := other.bits.length, bits := other.bits, bound := true }

/-- size (sparse_sd_vector.hpp:185) -/
def size (s : SparseBV) : Nat := s.u

/-- operator[] and at (sparse_sd_vector.hpp:90-99) -/
def access (s : SparseBV) (i : Nat) : Option Bool := do
  assertC (decide (i < s.size))
  s.bits[i]?

/-- the rank support: a fault when it points to no vector -/
def rank1 (s : SparseBV) (i : Nat) : Option Nat := if s.bound then bvRank s.bits i else none

/-- rank (sparse_sd_vector.hpp:105-110) -/
def rank (s : SparseBV) (i : Nat) : Option Nat := do
  assertC (decide (i ≤ s.size))
  s.rank1 i

/-- number_of_1 (sparse_sd_vector.hpp:190) -/
def numberOf1 (s : SparseBV) : Option Nat := s.rank1 s.size

/-- select (sparse_sd_vector.hpp:175-180), from 0 -/
def select (s : SparseBV) (i : Nat) : Option Nat := do
  let k ← s.numberOf1
  assertC (decide (i < k))
  bvSelect s.bits (i + 1)

/-- predecessor_rank (sparse_sd_vector.hpp:117-126) -/
def predecessorRank (s : SparseBV) (i : Nat) : Option Nat := do
  let k ← s.rank i
  assertC (decide (k > 0))
  csub k 1

/-- predecessor (sparse_sd_vector.hpp:133-142) -/
def predecessor (s : SparseBV) (i : Nat) : Option Nat := do
  let k ← s.rank i
  assertC (decide (k > 0))
  let k ← csub k 1
  s.select k

/-- predecessor_rank_circular (sparse_sd_vector.hpp:150-154; not in sparse_hyb_vector.hpp) -/
def predecessorRankCircular (s : SparseBV) (i : Nat) : Option Nat := do
  let k ← s.rank i
  if k = 0 then do
    let m ← s.numberOf1
    csub m 1
  else csub k 1

/-- gapAt (sparse_sd_vector.hpp:161-169) -/
def gapAt (s : SparseBV) (i : Nat) : Option Nat := do
  let k ← s.numberOf1
  assertC (decide (i < k))
  if i = 0 then do
    let p ← s.select 0
    return p + 1
  else do
    let p ← s.select i
    let q ← s.select (i - 1)
    csub p q

end SparseBV

/-- a byte string as a C string: up to the first zero (contract of sdsl::construct_im on a `const char *`) -/
def cString (s : List Nat) : List Nat := s.takeWhile (fun c => c != 0)

/-- huff_string, by the sequence its wavelet tree holds. The constructor (huff_string.hpp:29-36): `s` gets a zero byte at its end, and the
    tree is built from the C string. -/
def HuffString.build (s : List Nat) : Option (List Nat) := do
  let s := s ++ [0]
  let w := cString s
  assertC (decide (w.length = s.length - 1))
  return w

namespace HuffString

/-- operator[] (huff_string.hpp:38-43) -/
def access (w : List Nat) (i : Nat) : Option Nat := do
  assertC (decide (i < w.length))
  w[i]?

/-- rank (huff_string.hpp:49-54) -/
def rank (w : List Nat) (i c : Nat) : Option Nat := do
  assertC (decide (i ≤ w.length))
  wtRank w i c

/-- inverse_select (huff_string.hpp:56-58) -/
def inverseSelect (w : List Nat) (i : Nat) : Option (Nat × Nat) := wtInverseSelect w i

/-- select (huff_string.hpp:63-67), from 0 -/
def select (w : List Nat) (i c : Nat) : Option Nat := wtSelect w (i + 1) c

end HuffString
end Sri

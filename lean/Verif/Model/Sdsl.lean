/-!
# Contracts of library code that is not in /repo

sdsl bit vectors, wavelet trees and integer vectors, by their documented meaning.
A query outside its domain is undefined behaviour and is modelled by `none`.
-/

namespace Sri
set_option autoImplicit false

/-- position of the `k`-th (from 0) element satisfying `p` -/
def selectFrom {α : Type} (p : α → Bool) : List α → Nat → Option Nat
  | [], _ => none
  | a :: l, k =>
    if p a then
      match k with
      | 0 => some 0
      | k + 1 => (selectFrom p l k).map (· + 1)
    else (selectFrom p l k).map (· + 1)

/-- `rank_1_type::operator()(i)`: number of ones in `[0,i)`; defined for `i ≤ size`.
    Contract of sdsl rank supports as used in sequence_ops.h:23,34, rle_string.hpp:771,959. -/
def bvRank (bv : List Bool) (i : Nat) : Option Nat :=
  if i ≤ bv.length then some ((bv.take i).count true) else none

/-- `select_1_type::operator()(k)`: position of the `k`-th one, `k` from 1;
    defined for `1 ≤ k ≤ #ones`. Contract of sdsl select supports as used in sequence_ops.h:35. -/
def bvSelect (bv : List Bool) (k : Nat) : Option Nat :=
  if k = 0 then none else selectFrom id bv (k - 1)

/-- wavelet tree `rank(i,c)`: number of `c` in `[0,i)`; defined for `i ≤ size`.
    Contract of sdsl::wt_huff as used in rle_string.hpp:770,797. -/
def wtRank (w : List Nat) (i c : Nat) : Option Nat :=
  if i ≤ w.length then some ((w.take i).count c) else none

/-- wavelet tree `select(k,c)`: position of the `k`-th `c`, `k` from 1. (rle_string.hpp:743,835) -/
def wtSelect (w : List Nat) (k c : Nat) : Option Nat :=
  if k = 0 then none else selectFrom (· == c) w (k - 1)

/-- wavelet tree `inverse_select(i)`: `(rank(i,w[i]), w[i])`. (rle_string.hpp:1002) -/
def wtInverseSelect (w : List Nat) (i : Nat) : Option (Nat × Nat) :=
  match w[i]? with
  | none => none
  | some c => some ((w.take i).count c, c)

/-- `std::size_t` subtraction that must not wrap -/
def csub (a b : Nat) : Option Nat := if b ≤ a then some (a - b) else none

/-- `%` on `std::size_t`: division by zero is undefined behaviour -/
def cmod (a b : Nat) : Option Nat := if b = 0 then none else some (a % b)

/-- `assert(cond)`: a failing assertion is a fault -/
def assertC (b : Bool) : Option Unit := if b then some () else none

end Sri

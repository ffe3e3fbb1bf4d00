import Verif.Model.Sdsl
/-! # alphabet.h and construct_base.h: the compact alphabet

`sri::Alphabet` derives from `sdsl::byte_alphabet` / `sdsl::int_alphabet` (alphabet.h:14-25), library code.
What is written here is its documented contract. -/
namespace Sri
set_option autoImplicit false

/-- Compact alphabet: the distinct characters in increasing order and the array `C`
    (`C[k]` = number of characters whose compact symbol is below `k`, `k = 0 .. sigma`). -/
structure Alphabet where
  chars : List Nat
  C : List Nat
deriving Repr, DecidableEq

namespace Alphabet

/-- number of distinct characters (`sigma`) -/
def sigma (a : Alphabet) : Nat := a.chars.length

/-- `char2comp[c]` (r_index.h:278, construct_base.h:80): rank of `c` among the characters of the text;
    a character that does not occur has the entry 0. -/
def char2comp (a : Alphabet) (c : Nat) : Nat := if c ∈ a.chars then a.chars.idxOf c else 0

/-- constructAlphabet (construct_base.h:59-70): the alphabet of the characters of the BWT file.
    Contract of the sdsl alphabet constructors. -/
def build (xs : List Nat) : Alphabet :=
  let chars := (List.range (xs.foldl max 0 + 1)).filter (fun c => decide (c ∈ xs))
  let comp := fun c => if c ∈ chars then chars.idxOf c else 0
  { chars := chars, C := (List.range (chars.length + 1)).map (fun k => xs.countP (fun x => decide (comp x < k))) }

end Alphabet
end Sri

import Verif.Spec
/-! # construct_sdsl.h: constructText, and the contract of the suffix-array construction -/
namespace Sri
set_option autoImplicit false

/-- what constructText does: it stores a text in the cache, or throws `std::logic_error` -/
inductive TextResult where
  | stored (text : List Nat)
  | innerZero
deriving Repr, DecidableEq

/-- `std::find(text.begin(), text.end(), 0)` (construct_sdsl.h:33): distance of the iterator from the beginning -/
def findZero : List Nat → Nat
  | [] => 0
  | c :: l => if c = 0 then 0 else findZero l + 1

/-- constructText<8> (construct_sdsl.h:20-41) on the bytes of the input file. `load_vector_from_file` (contract: the bytes of the file) and
    `store_to_cache` are library code. -/
def constructText (bytes : List Nat) : TextResult :=
  let it := findZero bytes
  if it = bytes.length then .stored (bytes ++ [0])
  else if it ≠ bytes.length - 1 then .innerZero
  else .stored bytes

/-- insertion of a position by its suffix -/
def insertSuffix (T : List Nat) (p : Nat) : List Nat → List Nat
  | [] => [p]
  | q :: l => if T.drop p < T.drop q then p :: q :: l else q :: insertSuffix T p l

/-- contract of sdsl::construct_sa (construct_sdsl.h:137): the text positions in the order of their suffixes, by an insertion sort. That
    this is the only list with the property `IsSA` is proved, so every correct construction returns it. -/
def suffixArray (T : List Nat) : List Nat := (List.range T.length).foldr (insertSuffix T) []

end Sri

import Verif.Spec
import Verif.Model.RleString
/-! # Specification vocabulary: breaking a range (both ends included) of a sequence -/
namespace Sri
set_option autoImplicit false

/-- `L` lists, from left to right, the parts inside `[l,r]` of the runs of `c` -/
def SubRanges (xs : List Nat) (l r c : Nat) (L : List (Nat × Nat)) : Prop :=
  (∀ x, x ∈ L ↔ ∃ a b, IsRun xs a b c ∧ a ≤ r ∧ l < b ∧ x = (max l a, min r (b - 1))) ∧ L.Pairwise (fun x y => x.2 < y.1)

/-- `L` lists, from left to right, the parts inside `[first,last]` of all runs, with the number and the symbol of the run -/
def RunsInside (xs : List Nat) (first last : Nat) (L : List RleString.StringRun) : Prop :=
  (∀ x, x ∈ L ↔ ∃ a b c, IsRun xs a b c ∧ a ≤ last ∧ first < b ∧
    x = { run := runsBefore xs a, c := c, first := max first a, last := min last (b - 1) }) ∧ L.Pairwise (fun x y => x.last < y.first)

/-- position `j` of `[first,last]` holds `c` and is beside a position of `[first,last]` that does not -/
def BreakAt (xs : List Nat) (first last c j : Nat) : Prop :=
  first ≤ j ∧ j ≤ last ∧ xs[j]? = some c ∧
  ∃ k, (k = j + 1 ∨ j = k + 1) ∧ first ≤ k ∧ k ≤ last ∧ xs[k]? ≠ some c

end Sri

import Verif.Spec
import Verif.Model.Psi
/-! # Specification vocabulary: splitting a range into runs -/
namespace Sri
set_option autoImplicit false

/-- the part of the run `[a,b)` of `c` inside `[lo,hi)`, with the number of the run among those of `c` and whether it is its beginning -/
def runPiece (xs : List Nat) (lo hi a b c : Nat) : PsiCoreRLE.Piece :=
  { first := max lo a, last := min hi b, c := c, idx := symbolRunsBefore xs c a, isFirst := decide (lo ≤ a) }

/-- what a split of `[lo,hi)` in the runs of `c` is -/
def SplitOf (xs : List Nat) (lo hi c : Nat) (l : List PsiCoreRLE.Piece) : Prop :=
  (∀ x, x ∈ l ↔ ∃ a b, IsRun xs a b c ∧ a < hi ∧ lo < b ∧ x = runPiece xs lo hi a b c) ∧ l.Pairwise (fun x y => x.last < y.first)

/-- a split of `[lo,hi)` in all the runs that meet it, from left to right -/
def SortedSplit (xs : List Nat) (lo hi : Nat) (l : List PsiCoreRLE.Piece) : Prop :=
  (∀ x, x ∈ l ↔ ∃ a b c, IsRun xs a b c ∧ a < hi ∧ lo < b ∧ x = runPiece xs lo hi a b c) ∧ l.Pairwise (fun x y => x.first < y.first)

end Sri

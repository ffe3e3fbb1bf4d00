import Verif.Model.AllIndexes
import Verif.Model.Objects
/-! # What a reader of the structure tree of an index looks for -/
namespace Sri
set_option autoImplicit false

/-- what an index writes: its rate, or an item, with the name under which it is filed -/
inductive TreeEntry where
  | rate
  | item (name : String) (slot : Slot) (part : Part) (ty : ItemType)
deriving DecidableEq, Repr

/-- the entries of each class -/
def IndexType.entries (t : IndexType) (b : BvKind) : List TreeEntry :=
  let plain (nav : String) (navTy : ItemType) : List TreeEntry :=
    [.item "alphabet" .alphabet .self .alphabet, .item nav .navigate .self navTy, .item "samples" .samples .self .ints,
      .item "marks" .marks .self .sdVector, .item "marks_rank" .marks .rank .sdRank, .item "marks_select" .marks .select .sdSelect,
      .item "mark_to_sample" .markToSample .self .ints]
  let idx : List TreeEntry := [.item "samples_idx" .samplesIdx .self b.ty, .item "samples_idx_rank" .samplesIdx .rank b.rankTy]
  let srIndex := .rate :: plain "bwt" .bwtRle ++ idx
  let srCSA := .rate :: plain "psi" .psi ++ idx ++ [.item "samples_idx_select" .samplesIdx .select b.selectTy]
  let slim := .rate :: plain "psi" .psi ++ idx ++ [.item "run_cumulative_count" .runCumulativeCount .self .ints]
  let psi := plain "psi" .psi ++ idx ++ [.item "run_cumulative_count" .runCumulativeCount .self .ints]
  let marks : List TreeEntry := [.item "valid_marks" .validMarks .self .bitVector]
  let areas : List TreeEntry := [.item "valid_marks_rank" .validMarks .rank .bitRank0, .item "valid_areas" .validAreas .self .ints]
  match t with
  | .rIndex => plain "bwt" .bwtRle
  | .srIndex => srIndex
  | .srIndexValidMark => srIndex ++ marks
  | .srIndexValidArea => srIndex ++ marks ++ areas
  | .rcsaWithBWTRun | .rcsaWithPsiRun => plain "psi" .psi
  | .srCSA => srCSA
  | .srCSAValidMark => srCSA ++ marks
  | .srCSAValidArea => srCSA ++ marks ++ areas
  | .srCSASlim => slim
  | .srCSASlimValidMark => slim ++ marks
  | .srCSASlimValidArea => slim ++ marks ++ areas
  | .srCSAWithPsiRun => psi
  | .psiValidMark => psi ++ marks
  | .psiValidArea => psi ++ marks ++ areas

end Sri

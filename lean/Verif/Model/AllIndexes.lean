import Verif.Model.SrIndex
import Verif.Model.SrCSA
/-! # The index types side by side -/
namespace Sri
set_option autoImplicit false

/-- the index types of the library -/
inductive IndexType where
  | rIndex | srIndex | srIndexValidMark | srIndexValidArea
  | rcsaWithBWTRun | rcsaWithPsiRun
  | srCSA | srCSASlim | srCSAValidMark | srCSAValidArea | srCSASlimValidMark | srCSASlimValidArea
  | srCSAWithPsiRun | psiValidMark | psiValidArea
deriving DecidableEq, Repr

/-- the two queries of a built index -/
structure Queries where
  count : List Nat → Option (Nat × Nat)
  locate : List Nat → Option (List Nat)

/-- build an index of the given type on the text `T` with suffix array `sa`, at the rate `s` (which RIndex and the r-CSAs ignore) -/
def buildIndex (t : IndexType) (T sa : List Nat) (s : Nat) : Option Queries :=
  match t with
  | .rIndex => (RIndex.build T sa).map (fun I => ⟨I.count, I.locate⟩)
  | .srIndex => (SrIndex.build T sa s).map (fun I => ⟨I.count, I.locate⟩)
  | .srIndexValidMark => (SrIndexValid.build T sa s).map (fun I => ⟨I.countMark, I.locateMark⟩)
  | .srIndexValidArea => (SrIndexValid.build T sa s).map (fun I => ⟨I.countArea, I.locateArea⟩)
  | .rcsaWithBWTRun => (RCSABwt.build T sa).map (fun I => ⟨RCSABwt.count I, RCSABwt.locate I⟩)
  | .rcsaWithPsiRun => (RCSAPsi.build T sa).map (fun I => ⟨RCSAPsi.count I, RCSAPsi.locate I⟩)
  | .srCSA => (SrCSA.build T sa s).map (fun I => ⟨I.count, I.locate⟩)
  | .srCSASlim => (SrCSA.buildSlim T sa s).map (fun I => ⟨I.countSlim, I.locateSlim⟩)
  | .srCSAValidMark => (SrCSAValid.build T sa s).map (fun I => ⟨I.countMark, I.locateMark⟩)
  | .srCSAValidArea => (SrCSAValid.build T sa s).map (fun I => ⟨I.countArea, I.locateArea⟩)
  | .srCSASlimValidMark => (SrCSAValid.buildSlim T sa s).map (fun I => ⟨I.countMarkSlim, I.locateMarkSlim⟩)
  | .srCSASlimValidArea => (SrCSAValid.buildSlim T sa s).map (fun I => ⟨I.countAreaSlim, I.locateAreaSlim⟩)
  | .srCSAWithPsiRun => (SrCSA.buildPsi T sa s).map (fun I => ⟨I.countSlim, I.locateSlim⟩)
  | .psiValidMark => (SrCSAValid.buildPsi T sa s).map (fun I => ⟨I.countMarkSlim, I.locateMarkSlim⟩)
  | .psiValidArea => (SrCSAValid.buildPsi T sa s).map (fun I => ⟨I.countAreaSlim, I.locateAreaSlim⟩)

end Sri

import Verif.Model.AllIndexes
/-! # The number of entries of what a built index stores -/
namespace Sri
set_option autoImplicit false

/-- entries of the containers an index loads: samples of text positions, marks (`1`s of the bit vector of marks), links from marks to samples,
    sampled runs (`1`s of the bit vector of sampled runs; none in RIndex and the r-CSAs), validity bits and valid areas (none in the classes
    without validity information). The containers are those loaded by loadAllItems (r_index.h:89-101, sr_index.h:81-86, 299-303, 405-411,
    r_csa.h:91-103, 452-464, sr_csa.h:217-224, 431-436, 609-613, 712-719, sr_csa_psi.h:82-89, 340-344, 434-440). -/
structure Stored where
  samples : Nat
  marks : Nat
  links : Nat
  sampled : Nat
  validBits : Nat
  areas : Nat
deriving DecidableEq, Repr

/-- r_index.h:89-101 -/
def RIndex.stored (I : RIndex) : Stored := ⟨I.samples.length, I.marks.count true, I.markToSample.length, 0, 0, 0⟩
/-- sr_index.h:81-86 -/
def SrIndex.stored (I : SrIndex) : Stored :=
  ⟨I.base.samples.length, I.base.marks.count true, I.base.markToSample.length, I.samplesIdx.count true, 0, 0⟩
/-- sr_index.h:299-303, 405-411 -/
def SrIndexValid.stored (I : SrIndexValid) : Stored := { I.sr.stored with validBits := I.validMarks.length, areas := I.validAreas.length }
/-- r_csa.h:91-103, 452-464 -/
def RCSA.stored (I : RCSA) : Stored := ⟨I.samples.length, I.marks.count true, I.markToSample.length, 0, 0, 0⟩
/-- sr_csa.h:217-224, 431-436, sr_csa_psi.h:82-89 -/
def SrCSA.stored (I : SrCSA) : Stored := ⟨I.samples.length, I.marks.count true, I.markToSample.length, I.samplesIdx.count true, 0, 0⟩
/-- sr_csa.h:609-613, 712-719, sr_csa_psi.h:340-344, 434-440 -/
def SrCSAValid.stored (I : SrCSAValid) : Stored := { I.csa.stored with validBits := I.validMarks.length, areas := I.validAreas.length }

/-- the numbers of entries of a built index; the ValidMark classes are counted with the areas their construction writes -/
def storedSizes (t : IndexType) (T sa : List Nat) (s : Nat) : Option Stored :=
  match t with
  | .rIndex => (RIndex.build T sa).map RIndex.stored
  | .srIndex => (SrIndex.build T sa s).map SrIndex.stored
  | .srIndexValidMark | .srIndexValidArea => (SrIndexValid.build T sa s).map SrIndexValid.stored
  | .rcsaWithBWTRun => (RCSABwt.build T sa).map RCSA.stored
  | .rcsaWithPsiRun => (RCSAPsi.build T sa).map RCSA.stored
  | .srCSA => (SrCSA.build T sa s).map SrCSA.stored
  | .srCSASlim => (SrCSA.buildSlim T sa s).map SrCSA.stored
  | .srCSAValidMark | .srCSAValidArea => (SrCSAValid.build T sa s).map SrCSAValid.stored
  | .srCSASlimValidMark | .srCSASlimValidArea => (SrCSAValid.buildSlim T sa s).map SrCSAValid.stored
  | .srCSAWithPsiRun => (SrCSA.buildPsi T sa s).map SrCSA.stored
  | .psiValidMark | .psiValidArea => (SrCSAValid.buildPsi T sa s).map SrCSAValid.stored

/-- the types that keep a sub-set of the samples -/
def IndexType.subsampled : IndexType → Bool
  | .rIndex | .rcsaWithBWTRun | .rcsaWithPsiRun => false
  | _ => true

/-- the types that load validity information -/
def IndexType.withValidity : IndexType → Bool
  | .srIndexValidMark | .srIndexValidArea | .srCSAValidMark | .srCSAValidArea | .srCSASlimValidMark | .srCSASlimValidArea
  | .psiValidMark | .psiValidArea => true
  | _ => false

end Sri

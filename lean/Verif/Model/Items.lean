import Verif.Model.Objects
/-! # The items that construct leaves in the cache for an index -/
namespace Sri
set_option autoImplicit false

/-- the item of a slot or of a support of it, as an index object keeps it once loaded: the supports point to their bit vector -/
def itemOf (b : BvKind) (p : Parts) (w : Write) : Item :=
  match w.slot, w.part with
  | .alphabet, _ => .alphabet p.alphabet
  | .navigate, _ => p.nav
  | .marks, .self => .sdVector p.marks
  | .marks, .rank => .sdRank (some p.marks)
  | .marks, .select => .sdSelect (some p.marks)
  | .samples, _ => .ints p.samples
  | .markToSample, _ => .ints p.markToSample
  | .samplesIdx, .self =>
    (match b with
     | .sd => .sdVector p.samplesIdx
     | .plain => .bitVector p.samplesIdx)
  | .samplesIdx, .rank =>
    (match b with
     | .sd => .sdRank (some p.samplesIdx)
     | .plain => .bitRank1 p.samplesIdx (some p.samplesIdx))
  | .samplesIdx, .select =>
    (match b with
     | .sd => .sdSelect (some p.samplesIdx)
     | .plain => .bitSelect1 p.samplesIdx (some p.samplesIdx))
  | .runCumulativeCount, _ => .ints p.cumRuns
  | .validMarks, .self => .bitVector p.validMarks
  | .validMarks, _ => .bitRank0 p.validMarks (some p.validMarks)
  | .validAreas, _ => .ints p.validAreas

namespace Parts

def ofRIndex (I : RIndex) : Parts :=
  { alphabet := I.alphabet, nav := .bwtRle I.bwtRle, samples := I.samples, marks := I.marks, markToSample := I.markToSample, samplesIdx := [],
    cumRuns := [], validMarks := [], validAreas := [] }

def ofSrIndex (I : SrIndex) : Parts := { ofRIndex I.base with samplesIdx := I.samplesIdx }

def ofRCSA (I : RCSA) : Parts :=
  { alphabet := I.alphabet, nav := .psi I.psi, samples := I.samples, marks := I.marks, markToSample := I.markToSample, samplesIdx := [],
    cumRuns := [], validMarks := [], validAreas := [] }

def ofSrCSA (I : SrCSA) : Parts := { ofRCSA I.toRCSA with samplesIdx := I.samplesIdx, cumRuns := I.cumRuns }

end Parts

/-- the items that `construct` of an index type stores for the text `T` with suffix array `sa` at the rate `s`; a ValidMark index has no
    areas -/
def partsOf (t : IndexType) (T sa : List Nat) (s : Nat) : Option Parts :=
  match t with
  | .rIndex => (RIndex.build T sa).map Parts.ofRIndex
  | .srIndex => (SrIndex.build T sa s).map Parts.ofSrIndex
  | .srIndexValidMark => (SrIndexValid.build T sa s).map (fun I => { Parts.ofSrIndex I.sr with validMarks := I.validMarks })
  | .srIndexValidArea =>
    (SrIndexValid.build T sa s).map (fun I => { Parts.ofSrIndex I.sr with validMarks := I.validMarks, validAreas := I.validAreas })
  | .rcsaWithBWTRun => (RCSABwt.build T sa).map Parts.ofRCSA
  | .rcsaWithPsiRun => (RCSAPsi.build T sa).map Parts.ofRCSA
  | .srCSA => (SrCSA.build T sa s).map Parts.ofSrCSA
  | .srCSASlim => (SrCSA.buildSlim T sa s).map Parts.ofSrCSA
  | .srCSAValidMark => (SrCSAValid.build T sa s).map (fun I => { Parts.ofSrCSA I.csa with validMarks := I.validMarks })
  | .srCSAValidArea =>
    (SrCSAValid.build T sa s).map (fun I => { Parts.ofSrCSA I.csa with validMarks := I.validMarks, validAreas := I.validAreas })
  | .srCSASlimValidMark => (SrCSAValid.buildSlim T sa s).map (fun I => { Parts.ofSrCSA I.csa with validMarks := I.validMarks })
  | .srCSASlimValidArea =>
    (SrCSAValid.buildSlim T sa s).map (fun I => { Parts.ofSrCSA I.csa with validMarks := I.validMarks, validAreas := I.validAreas })
  | .srCSAWithPsiRun => (SrCSA.buildPsi T sa s).map Parts.ofSrCSA
  | .psiValidMark => (SrCSAValid.buildPsi T sa s).map (fun I => { Parts.ofSrCSA I.csa with validMarks := I.validMarks })
  | .psiValidArea =>
    (SrCSAValid.buildPsi T sa s).map (fun I => { Parts.ofSrCSA I.csa with validMarks := I.validMarks, validAreas := I.validAreas })

/-- all the accesses of loadInner -/
def accesses (t : IndexType) (b : BvKind) : List Access := loadAllItems t b ++ constructAccesses t b

/-- the key prefix of a fresh object constructed with the rate `s`: classes without a rate use none -/
def buildPrefix (t : IndexType) (s : Nat) : Key := if t.sampled then ratePrefix s else []

/-- the files that `construct` of an index type writes and load reads: (key, hash of the type in the file name or none, contents); supports
    are stored without their vector -/
def indexFiles (t : IndexType) (b : BvKind) (s : Nat) (p : Parts) : List ((Key × Option ItemType) × Item) :=
  (accesses t b).map (fun a =>
    let ty := if a.part = .self then a.ty else a.sty
    ((keyOf t (buildPrefix t s) a.slot, if a.hash then some ty else none), (itemOf b p ⟨a.slot, a.part, ty⟩).unbound))

end Sri

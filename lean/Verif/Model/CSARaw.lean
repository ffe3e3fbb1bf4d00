import Verif.Model.RCSA
import Verif.Model.Streams
/-! # r_csa.h: CSARaw, the compressed suffix array that keeps the whole suffix array -/
namespace Sri
set_option autoImplicit false

/-- the items CSARaw loads (r_csa.h:299-303): alphabet, psi and the suffix array -/
structure CSARaw extends PsiNav where
  sa : List Nat
deriving Repr, DecidableEq

namespace CSARaw

/-- the loop of constructComputeSAValues (r_csa.h:324-328); the first argument is `last - first` -/
def values (I : CSARaw) : Nat → Nat → Option (List Nat)
  | 0, _ => some []
  | k + 1, first => do
    let v ← I.sa[first]?
    let l ← values I k (first + 1)
    return v :: l

/-- constructComputeSAValues (r_csa.h:320-331); the data of the search are not used -/
def computeSAValues (I : CSARaw) (range : Range) (_ : StepData Nat) : Option (List Nat) := I.values (range.stop - range.start) range.start

/-- constructIndex (r_csa.h:310-318); `createData` (r_csa.h:314-317) is that of RCSAWithBWTRun -/
def functors (I : CSARaw) : Functors Range RangeRunLF (StepData Nat) where
  lf := I.lf
  toRange := PsiNav.toRange
  update := updateToehold PsiNav.lfTrivial RCSABwt.createData
  computeAll := I.computeSAValues
  bwtSize := I.n
  initial := fun _ => { step := 0, run := 0 }
  getSymbol := I.alphabet.char2comp
  fullRange := fun n => { start := 0, stop := n }
  isEmpty := fun r => !decide (r.start < r.stop)
  bounds := fun r => (r.start, r.stop)

/-- loadAllItems and constructIndex (r_csa.h:299-318): `n` is set by constructLF (r_csa.h:163) from the alphabet -/
def ofItems (alphabet : Alphabet) (psi : PsiCoreRLE) (sa : List Nat) : Option CSARaw := do
  let n ← alphabet.C[alphabet.sigma]?
  return { alphabet := alphabet, psi := psi, n := n, sa := sa }

/-- the class has no construct of its own: it is loaded from the files of RCSAWithBWTRun (r_csa.h:350-378; benchmark/sr-csa/factory.h:74-79),
    and from the suffix array (construct_sdsl.h:135-138) -/
def build (T sa : List Nat) : Option CSARaw := do
  let b ← constructBase T sa
  let p ← constructPsiItems b
  ofItems b.alphabet p.core sa

/-- `CSARaw::Count` -/
def count (I : CSARaw) (P : List Nat) : Option (Nat × Nat) := I.functors.count P

/-- `CSARaw::Locate` -/
def locate (I : CSARaw) (P : List Nat) : Option (List Nat) := I.functors.locate P

variable {α : Type} (A : Prims α)

/-- serialize (r_csa.h:278-291) -/
def serialize (I : CSARaw) : List α := A.encAlphabet I.alphabet ++ I.psi.serialize A ++ A.encInts I.sa

/-- load from a stream on an empty storage: the items in the order of loadAllItems (r_csa.h:299-303) -/
def load (dens : Nat) (bytes : List α) : Option (CSARaw × List α) := do
  let (alphabet, bytes) ← A.decAlphabet bytes
  let (psi, bytes) ← PsiCoreRLE.load A dens bytes
  let (sa, bytes) ← A.decInts bytes
  let I ← ofItems alphabet psi sa
  return (I, bytes)

end CSARaw
end Sri

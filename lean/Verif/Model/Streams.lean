import Verif.Model.RleString
import Verif.Model.Objects
/-! # Streams and copies of the data structures

serialize, load, copy constructors and assignments of RLEString, rle_string, the sparse vectors, enc_vector, PsiCoreRLE and PsiCoreBV, down to the
types of sdsl. A support (rank or select) is an object with data of its own and a pointer to a bit vector; the pointer is what copying and
loading can get wrong. -/
namespace Sri
set_option autoImplicit false

/-- the supports of sdsl::bit_vector that are used -/
inductive SupportKind where
  | rank0 | rank1 | select1
deriving DecidableEq, Repr

/-- how the types of sdsl write and read a stream of `α`s (write_member and read_member of an integer, sdsl::int_vector, sdsl::bit_vector,
    sdsl::sd_vector, sdsl::wt_huff and sdsl::wt_*, the alphabets, the supports of bit_vector; the supports of sd_vector write nothing).
    Not modelled: the theorems ask that reading gives back what was written and leaves the rest (`Prims.Faithful`). -/
structure Prims (α : Type) where
  encSize : Nat → List α
  decSize : List α → Option (Nat × List α)
  encInts : List Nat → List α
  decInts : List α → Option (List Nat × List α)
  encBits : List Bool → List α
  decBits : List α → Option (List Bool × List α)
  encSd : List Bool → List α
  decSd : List α → Option (List Bool × List α)
  encWt : List Nat → List α
  decWt : List α → Option (List Nat × List α)
  encAlphabet : Alphabet → List α
  decAlphabet : List α → Option (Alphabet × List α)
  encSupport : SupportKind → List Bool → List α
  decSupport : SupportKind → List α → Option (List Bool × List α)

/-- where the pointer of a support leads, seen from the object that holds the support: nowhere, to the bit vector that object holds itself, or
    to the bit vector of another object -/
inductive Ptr where
  | null | own | foreign
deriving DecidableEq, Repr

/-- the pointer in an object that was copied member by member: what pointed into the copied object still points there -/
def Ptr.copied : Ptr → Ptr
  | null => null
  | own => foreign
  | foreign => foreign

/-- a rank or select support: the vector its own data were computed from (none for sd_vector: `[]`), and its pointer -/
structure Support where
  data : List Bool
  ptr : Ptr
deriving DecidableEq, Repr

namespace Support

/-- `TSupport{}` -/
def empty : Support := { data := [], ptr := .null }

/-- `TSupport{&bv}` for the bit vector of the same object -/
def over (b : BvKind) (bv : List Bool) : Support := { data := match b with | .sd => [] | .plain => bv, ptr := .own }

/-- the support works on the bit vector `bv` of its own object -/
def works (b : BvKind) (bv : List Bool) (s : Support) : Bool :=
  decide (s.ptr = .own) && (match b with | .sd => true | .plain => decide (s.data = bv))

/-- implicit copy, inside the copy of the object that holds it -/
def copied (s : Support) : Support := { s with ptr := s.ptr.copied }

variable {α : Type} (A : Prims α)

/-- sdsl::serialize of a support -/
def serialize (b : BvKind) (k : SupportKind) (s : Support) : List α :=
  match b with
  | .sd => []
  | .plain => A.encSupport k s.data

/-- sdsl::load of a support: it comes without its vector -/
def load (b : BvKind) (k : SupportKind) (bytes : List α) : Option (Support × List α) :=
  match b with
  | .sd => some ({ data := [], ptr := .null }, bytes)
  | .plain => do
    let (d, bytes) ← A.decSupport k bytes
    return ({ data := d, ptr := .null }, bytes)

/-- set_vector(&bv) for the bit vector of the same object -/
def setVector (s : Support) : Support := { s with ptr := .own }

end Support

section
variable {α : Type} (A : Prims α)

/-- sdsl::serialize and load of the bit vector itself -/
def encBv (b : BvKind) (bv : List Bool) : List α := match b with | .sd => A.encSd bv | .plain => A.encBits bv
def decBv (b : BvKind) (bytes : List α) : Option (List Bool × List α) := match b with | .sd => A.decSd bytes | .plain => A.decBits bytes

/-- sdsl::serialize of a std::vector (contract of sdsl/io.hpp): the number of elements, then the elements -/
def encVec {β : Type} (e : β → List α) (l : List β) : List α := A.encSize l.length ++ l.flatMap e

/-- reading `k` elements -/
def decEach {β : Type} (d : List α → Option (β × List α)) : Nat → List α → Option (List β × List α)
  | 0, bytes => some ([], bytes)
  | k + 1, bytes => do
    let (x, bytes) ← d bytes
    let (l, bytes) ← decEach d k bytes
    return (x :: l, bytes)

/-- sdsl::load of a std::vector: the vector is resized and each element loaded; the elements used here overwrite all their members -/
def decVec {β : Type} (d : List α → Option (β × List α)) (bytes : List α) : Option (List β × List α) := do
  let (k, bytes) ← A.decSize bytes
  decEach d k bytes

end

/-! ## RLEString -/

/-- RLEString::BitVector (rle_string.hpp:1007-1010) -/
structure BVObject where
  data : List Bool
  rank : Support
  select : Support
deriving DecidableEq, Repr

namespace BVObject

/-- `BitVector()` (rle_string.hpp:1012) -/
def empty : BVObject := { data := [], rank := .empty, select := .empty }

/-- the constructor from std::vector<bool> (rle_string.hpp:1014-1025) -/
def ofBools (b : BvKind) (bv : List Bool) : BVObject := { data := bv, rank := Support.over b bv, select := Support.over b bv }

/-- the copy constructor (rle_string.hpp:1027-1028) and operator= (1030-1036): the supports are built anew -/
def copy (b : BvKind) (x : BVObject) : BVObject := { data := x.data, rank := Support.over b x.data, select := Support.over b x.data }

/-- the object's supports belong to it, or its vector is empty: RLEString answers for a symbol with an empty vector without its supports
    (rle_string.hpp:729, 762, 786), and selectOnRuns (833) does not accept such a symbol -/
def works (b : BvKind) (x : BVObject) : Bool := x.data.isEmpty || (x.rank.works b x.data && x.select.works b x.data)

variable {α : Type} (A : Prims α)

/-- serialize (rle_string.hpp:1041-1052) -/
def serialize (b : BvKind) (x : BVObject) : List α :=
  encBv A b x.data ++ x.rank.serialize A b .rank1 ++ x.select.serialize A b .select1

/-- load (rle_string.hpp:1055-1061) -/
def load (b : BvKind) (bytes : List α) : Option (BVObject × List α) := do
  let (data, bytes) ← decBv A b bytes
  let (rank, bytes) ← Support.load A b .rank1 bytes
  let rank := rank.setVector
  let (select, bytes) ← Support.load A b .select1 bytes
  let select := select.setVector
  return ({ data := data, rank := rank, select := select }, bytes)

end BVObject

/-- RLEString with its bit vectors as objects (rle_string.hpp:1064-1070) -/
structure RLEObject where
  r : Nat
  b : Nat
  runHeads : List Nat
  runs : BVObject
  perSym : List BVObject
deriving DecidableEq, Repr

namespace RLEObject

/-- the object the constructor leaves (rle_string.hpp:667-712): BitVectors are made from vectors of bits and copied into the members; symbols
    that do not occur keep a default one (702-706) -/
def ofString (b : BvKind) (S : RLEString) : RLEObject :=
  { r := S.r, b := S.b, runHeads := S.runHeads, runs := (BVObject.ofBools b S.runs).copy b,
    perSym := S.perSym.map (fun bv => if bv = [] then .empty else (BVObject.ofBools b bv).copy b) }

/-- the sequence of runs that the object's operations work on, when its supports belong to it -/
def view (b : BvKind) (x : RLEObject) : Option RLEString :=
  if x.runs.works b && x.perSym.all (·.works b) then
    some { r := x.r, b := x.b, runHeads := x.runHeads, runs := x.runs.data, perSym := x.perSym.map (·.data) }
  else none

/-- implicit copy of RLEString: each member by its copy constructor -/
def copy (b : BvKind) (x : RLEObject) : RLEObject := { x with runs := x.runs.copy b, perSym := x.perSym.map (·.copy b) }

variable {α : Type} (A : Prims α)

/-- serialize (rle_string.hpp:876-892) -/
def serialize (b : BvKind) (x : RLEObject) : List α :=
  A.encSize x.r ++ A.encSize x.b ++ A.encWt x.runHeads ++ x.runs.serialize A b ++ encVec A (·.serialize A b) x.perSym

/-- load (rle_string.hpp:895-903): every member is overwritten -/
def load (b : BvKind) (bytes : List α) : Option (RLEObject × List α) := do
  let (r, bytes) ← A.decSize bytes
  let (bl, bytes) ← A.decSize bytes
  let (heads, bytes) ← A.decWt bytes
  let (runs, bytes) ← BVObject.load A b bytes
  let (per, bytes) ← decVec A (BVObject.load A b) bytes
  return ({ r := r, b := bl, runHeads := heads, runs := runs, perSym := per }, bytes)

end RLEObject

/-! ## enc_vector and PsiCoreRLE -/

namespace EncVector
variable {α : Type} (A : Prims α)

/-- serialize (enc_vector.hpp:345-355); `m_z` is an int_vector of width 1 -/
def serialize (E : EncVector) : List α := A.encSize E.size ++ A.encBits E.z ++ A.encInts E.sp

/-- load (enc_vector.hpp:357-363); the density is a template argument and not in the stream -/
def load (dens : Nat) (bytes : List α) : Option (EncVector × List α) := do
  let (size, bytes) ← A.decSize bytes
  let (z, bytes) ← A.decBits bytes
  let (sp, bytes) ← A.decInts bytes
  return ({ dens := dens, size := size, sp := sp, z := z }, bytes)

end EncVector

section
variable {α : Type} (A : Prims α)

/-- std::serialize of the pairs of PsiCoreRLE (io.h:16-23) -/
def encPart (q : EncVector × List Nat) : List α := q.1.serialize A ++ A.encInts q.2

/-- std::load of the pairs (io.h:25-30) -/
def decPart (dens : Nat) (bytes : List α) : Option ((EncVector × List Nat) × List α) := do
  let (e, bytes) ← EncVector.load A dens bytes
  let (l, bytes) ← A.decInts bytes
  return ((e, l), bytes)

end

namespace PsiCoreRLE
variable {α : Type} (A : Prims α)

/-- serialize (psi.h:445-459) -/
def serialize (P : PsiCoreRLE) : List α := A.encSize P.n ++ A.encSize P.first ++ encVec A (encPart A) P.parts

/-- load (psi.h:462-468) -/
def load (dens : Nat) (bytes : List α) : Option (PsiCoreRLE × List α) := do
  let (n, bytes) ← A.decSize bytes
  let (first, bytes) ← A.decSize bytes
  let (parts, bytes) ← decVec A (decPart A dens) bytes
  return ({ n := n, first := first, parts := parts }, bytes)

end PsiCoreRLE

/-! ## PsiCoreBV -/

/-- PsiCoreBV with its three vectors (psi.h:702-711) -/
structure PsiBVObject where
  n : Nat
  first : Nat
  parts : List (List Bool)
  ranks : List Support
  selects : List Support
deriving DecidableEq, Repr

namespace PsiBVObject

/-- the object the constructor leaves (psi.h:623-648) -/
def ofCore (b : BvKind) (P : PsiCoreBV) : PsiBVObject :=
  { n := P.n, first := P.first, parts := P.parts, ranks := P.parts.map (Support.over b), selects := P.parts.map (Support.over b) }

/-- what the object's operations work on, when its supports belong to it -/
def view (b : BvKind) (x : PsiBVObject) : Option PsiCoreBV :=
  if x.ranks.length = x.parts.length ∧ x.selects.length = x.parts.length ∧
      (x.parts.zip x.ranks).all (fun q => q.2.works b q.1) ∧ (x.parts.zip x.selects).all (fun q => q.2.works b q.1) then
    some { n := x.n, first := x.first, parts := x.parts }
  else none

/-- implicit copy constructor (psi.h:611-712 declares none): the supports are copied with their pointers -/
def copied (x : PsiBVObject) : PsiBVObject := { x with ranks := x.ranks.map (·.copied), selects := x.selects.map (·.copied) }

variable {α : Type} (A : Prims α)

/-- serialize (psi.h:672-686) -/
def serialize (b : BvKind) (x : PsiBVObject) : List α :=
  A.encSize x.n ++ A.encSize x.first ++ encVec A (encBv A b) x.parts ++ encVec A (·.serialize A b .rank1) x.ranks ++
    encVec A (·.serialize A b .select1) x.selects

/-- the loop of load (psi.h:697-700): supports missing for a bit vector are a fault -/
def setVectors (k : Nat) (l : List Support) : Option (List Support) :=
  if k ≤ l.length then some ((l.take k).map (·.setVector) ++ l.drop k) else none

/-- load (psi.h:689-701) -/
def load (b : BvKind) (bytes : List α) : Option (PsiBVObject × List α) := do
  let (n, bytes) ← A.decSize bytes
  let (first, bytes) ← A.decSize bytes
  let (parts, bytes) ← decVec A (decBv A b) bytes
  let (ranks, bytes) ← decVec A (Support.load A b .rank1) bytes
  let (selects, bytes) ← decVec A (Support.load A b .select1) bytes
  let ranks ← setVectors parts.length ranks
  let selects ← setVectors parts.length selects
  return ({ n := n, first := first, parts := parts, ranks := ranks, selects := selects }, bytes)

end PsiBVObject

/-! ## The sparse vectors and rle_string -/

/-- sparse_sd_vector and sparse_hyb_vector with the pointers of their supports (sparse_sd_vector.hpp:229-233) -/
structure SparseObject where
  u : Nat
  bits : List Bool
  rank : Ptr
  select : Ptr
deriving DecidableEq, Repr

namespace SparseObject

/-- `sparse_sd_vector()` (sparse_sd_vector.hpp:35) -/
def empty : SparseObject := { u := 0, bits := [], rank := .null, select := .null }

/-- constructor from std::vector<bool> (sparse_sd_vector.hpp:40-55) -/
def ofBools (b : List Bool) : SparseObject := if b.length = 0 then empty else { u := b.length, bits := b, rank := .own, select := .own }

/-- operator= (sparse_sd_vector.hpp:68-76) -/
def assign (other : SparseObject) : SparseObject := { u := other.bits.length, bits := other.bits, rank := .own, select := .own }

/-- implicit copy constructor: the supports are copied with their pointers -/
def copied (x : SparseObject) : SparseObject := { x with rank := x.rank.copied, select := x.select.copied }

/-- what the object's operations work on; a support without vector makes it unbound, and a support over the vector of another object has no
    view: what it answers depends on that object still being there, unchanged -/
def view (x : SparseObject) : Option SparseBV :=
  match x.rank, x.select with
  | .own, .own => some { u := x.u, bits := x.bits, bound := true }
  | .null, .null => some { u := x.u, bits := x.bits, bound := false }
  | _, _ => none

variable {α : Type} (A : Prims α)

/-- serialize (sparse_sd_vector.hpp:195-209) -/
def serialize (x : SparseObject) : List α := A.encSize x.u ++ if x.u = 0 then [] else A.encSd x.bits

/-- load (sparse_sd_vector.hpp:214-224) over the object `old` -/
def load (old : SparseObject) (bytes : List α) : Option (SparseObject × List α) := do
  let (u, bytes) ← A.decSize bytes
  if u = 0 then return ({ old with u := u }, bytes)
  else do
    let (bits, bytes) ← A.decSd bytes
    return ({ u := u, bits := bits, rank := .own, select := .own }, bytes)

end SparseObject

/-- rle_string with its sparse vectors as objects (rle_string.hpp:632-645) -/
structure RleObject where
  B : Nat
  runs : SparseObject
  perLetter : List SparseObject
  heads : List Nat
  n : Nat
  R : Nat
deriving DecidableEq, Repr

namespace RleObject

/-- `rle_string()` (rle_string.hpp:50) -/
def empty : RleObject := { B := 0, runs := .empty, perLetter := [], heads := [], n := 0, R := 0 }

/-- the object the constructor leaves (rle_string.hpp:115-123): `runs` and each element of `runs_per_letter` are assigned -/
def ofString (s : RleString) : RleObject :=
  { B := s.B, n := s.n, R := s.R, heads := s.heads, runs := (SparseObject.ofBools s.runs.bits).assign,
    perLetter := s.perLetter.map (fun bv => (SparseObject.ofBools bv.bits).assign) }

/-- what the object's operations work on -/
def view (x : RleObject) : Option RleString := do
  let runs ← x.runs.view
  let per ← x.perLetter.mapM (·.view)
  return { B := x.B, n := x.n, R := x.R, heads := x.heads, runs := runs, perLetter := per }

/-- implicit copy constructor -/
def copied (x : RleObject) : RleObject := { x with runs := x.runs.copied, perLetter := x.perLetter.map (·.copied) }

/-- implicit copy assignment over an rle_string without letters (default-constructed): `runs` by its operator=; std::vector's operator= has no
    elements to assign to and copy-constructs all of them -/
def assignedToEmpty (x : RleObject) : RleObject := { x with runs := x.runs.assign, perLetter := x.perLetter.map (·.copied) }

/-- implicit move: the buffer of `runs_per_letter` changes hands, its elements stay where they are; `runs` has no move constructor or assignment
    of its own. Move assignment uses its operator=. -/
def moveAssigned (x : RleObject) : RleObject := { x with runs := x.runs.assign }

/-- the move constructor copy-constructs `runs` -/
def moveConstructed (x : RleObject) : RleObject := { x with runs := x.runs.copied }

variable {α : Type} (A : Prims α)

/-- serialize (rle_string.hpp:419-441): writing the 256 vectors of an object that has fewer is a fault -/
def serialize (x : RleObject) : Option (List α) :=
  let head := A.encSize x.n ++ A.encSize x.R ++ A.encSize x.B
  if x.n = 0 then some head
  else if 256 ≤ x.perLetter.length then
    some (head ++ x.runs.serialize A ++ (x.perLetter.take 256).flatMap (·.serialize A) ++ A.encWt x.heads)
  else none

/-- load (rle_string.hpp:446-462) over the object `old`; the letters are loaded into new vectors -/
def load (old : RleObject) (bytes : List α) : Option (RleObject × List α) := do
  let (n, bytes) ← A.decSize bytes
  let (R, bytes) ← A.decSize bytes
  let (B, bytes) ← A.decSize bytes
  if n = 0 then return ({ old with n := n, R := R, B := B }, bytes)
  else do
    let (runs, bytes) ← old.runs.load A bytes
    let (per, bytes) ← decEach (SparseObject.load A .empty) 256 bytes
    let (heads, bytes) ← A.decWt bytes
    return ({ B := B, n := n, R := R, runs := runs, perLetter := per, heads := heads }, bytes)

end RleObject

/-! ## The items of the indexes -/

/-- the codec of the items: RLEString over sd_vector, PsiCoreRLE over enc_vector of density `dens` (64 by default), and the types of sdsl -/
def codecOf {α : Type} (A : Prims α) (dens : Nat) : Codec α where
  encSize := A.encSize
  decSize := A.decSize
  enc := fun x =>
    match x with
    | .alphabet a => A.encAlphabet a
    | .bwtRle S => (RLEObject.ofString .sd S).serialize A .sd
    | .psi P => P.serialize A
    | .ints l => A.encInts l
    | .sdVector bv => A.encSd bv
    | .bitVector bv => A.encBits bv
    | .sdRank _ => []
    | .sdSelect _ => []
    | .bitRank0 d _ => A.encSupport .rank0 d
    | .bitRank1 d _ => A.encSupport .rank1 d
    | .bitSelect1 d _ => A.encSupport .select1 d
  dec := fun ty bytes =>
    match ty with
    | .alphabet => (A.decAlphabet bytes).map (fun q => (.alphabet q.1, q.2))
    | .bwtRle => do
      let (x, bytes) ← RLEObject.load A .sd bytes
      let S ← x.view .sd
      return (.bwtRle S, bytes)
    | .psi => (PsiCoreRLE.load A dens bytes).map (fun q => (.psi q.1, q.2))
    | .ints => (A.decInts bytes).map (fun q => (.ints q.1, q.2))
    | .sdVector => (A.decSd bytes).map (fun q => (.sdVector q.1, q.2))
    | .bitVector => (A.decBits bytes).map (fun q => (.bitVector q.1, q.2))
    | .sdRank => some (.sdRank none, bytes)
    | .sdSelect => some (.sdSelect none, bytes)
    | .bitRank0 => (A.decSupport .rank0 bytes).map (fun q => (.bitRank0 q.1 none, q.2))
    | .bitRank1 => (A.decSupport .rank1 bytes).map (fun q => (.bitRank1 q.1 none, q.2))
    | .bitSelect1 => (A.decSupport .select1 bytes).map (fun q => (.bitSelect1 q.1 none, q.2))

end Sri

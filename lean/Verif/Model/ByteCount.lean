import Verif.Model.Streams
/-! # The number that serialize returns

Every serialize of the library writes to a stream and returns the number of bytes it has written, which it adds up in a variable of its own
(`written_bytes`, `w_bytes`). Model/Objects.lean and Model/Streams.lean say what is written; here the functions are followed once more with that
variable, class by class along the inheritance. -/
namespace Sri
set_option autoImplicit false

/-- the types of sdsl, with the number that the serialize of each returns (write_member of an integer returns its sizeof) -/
structure CountingPrims (α : Type) extends Prims α where
  sizeOf : Nat
  retInts : List Nat → Nat
  retBits : List Bool → Nat
  retSd : List Bool → Nat
  retWt : List Nat → Nat
  retAlphabet : Alphabet → Nat
  retSupport : SupportKind → List Bool → Nat

/-- what a call of a serialize did: the bytes it wrote and the number it returned; also the state inside one, with its counter -/
structure Out (α : Type) where
  bytes : List α
  ret : Nat
deriving DecidableEq, Repr

namespace Out
variable {α : Type}

/-- `size_type written_bytes = 0;` -/
def start : Out α := { bytes := [], ret := 0 }

/-- `written_bytes += f(out);` -/
def add (o : Out α) (c : Out α) : Out α := { bytes := o.bytes ++ c.bytes, ret := o.ret + c.ret }

/-- `out.write(p, k);` -/
def write (o : Out α) (l : List α) : Out α := { o with bytes := o.bytes ++ l }

/-- `written_bytes += k;` -/
def count (o : Out α) (k : Nat) : Out α := { o with ret := o.ret + k }

end Out

namespace CountingPrims
variable {α : Type} (A : CountingPrims α)

/-- the calls of sdsl -/
def size (x : Nat) : Out α := ⟨A.encSize x, A.sizeOf⟩
def ints (x : List Nat) : Out α := ⟨A.encInts x, A.retInts x⟩
def bits (x : List Bool) : Out α := ⟨A.encBits x, A.retBits x⟩
def sd (x : List Bool) : Out α := ⟨A.encSd x, A.retSd x⟩
def wt (x : List Nat) : Out α := ⟨A.encWt x, A.retWt x⟩
def alphabet (x : Alphabet) : Out α := ⟨A.encAlphabet x, A.retAlphabet x⟩
def support (k : SupportKind) (x : List Bool) : Out α := ⟨A.encSupport k x, A.retSupport k x⟩
def bv (b : BvKind) (x : List Bool) : Out α := match b with | .sd => A.sd x | .plain => A.bits x

/-- a support of sd_vector writes nothing and returns 0 -/
def supportOf (b : BvKind) (k : SupportKind) (s : Support) : Out α := match b with | .sd => .start | .plain => A.support k s.data

/-- sdsl::serialize of a std::vector (contract of sdsl/io.hpp): the size, then serialize_vector, which adds up the elements -/
def vec {β : Type} (e : β → Out α) (l : List β) : Out α := (A.size l.length).add (l.foldl (fun o x => o.add (e x)) .start)

end CountingPrims

variable {α : Type}

/-- RLEString::BitVector::serialize (rle_string.hpp:1041-1052) -/
def BVObject.serializeC (A : CountingPrims α) (b : BvKind) (x : BVObject) : Out α :=
  let w := Out.start
  let w := w.add (A.bv b x.data)
  let w := w.add (A.supportOf b .rank1 x.rank)
  let w := w.add (A.supportOf b .select1 x.select)
  w

/-- RLEString::serialize (rle_string.hpp:877-892) -/
def RLEObject.serializeC (A : CountingPrims α) (b : BvKind) (x : RLEObject) : Out α :=
  let w := Out.start
  let w := w.add (A.size x.r)
  let w := w.add (A.size x.b)
  let w := w.add (A.wt x.runHeads)
  let w := w.add (x.runs.serializeC A b)
  let w := w.add (A.vec (·.serializeC A b) x.perSym)
  w

/-- enc_vector::serialize (enc_vector.hpp:346-355) -/
def EncVector.serializeC (A : CountingPrims α) (E : EncVector) : Out α :=
  let w := Out.start
  let w := w.add (A.size E.size)
  let w := w.add (A.bits E.z)
  let w := w.add (A.ints E.sp)
  w

/-- std::serialize of a pair (io.h:16-23): `serialize(x.first, ..) + serialize(x.second, ..)`. The order in which the operands of `+` are evaluated
    is not specified in C++: `left` says whether the left one comes first. -/
def pairSerialize (left : Bool) (a b : Out α) : Out α :=
  { bytes := if left then a.bytes ++ b.bytes else b.bytes ++ a.bytes, ret := a.ret + b.ret }

/-- PsiCoreRLE::serialize (psi.h:448-460), its pairs by io.h:16-23 -/
def PsiCoreRLE.serializeC (A : CountingPrims α) (left : Bool) (P : PsiCoreRLE) : Out α :=
  let w := Out.start
  let w := w.add (A.size P.n)
  let w := w.add (A.size P.first)
  let w := w.add (A.vec (fun q => pairSerialize left (q.1.serializeC A) (A.ints q.2)) P.parts)
  w

/-- PsiCoreBV::serialize (psi.h:675-688) -/
def PsiBVObject.serializeC (A : CountingPrims α) (b : BvKind) (x : PsiBVObject) : Out α :=
  let w := Out.start
  let w := w.add (A.size x.n)
  let w := w.add (A.size x.first)
  let w := w.add (A.vec (A.bv b) x.parts)
  let w := w.add (A.vec (A.supportOf b .rank1) x.ranks)
  let w := w.add (A.vec (A.supportOf b .select1) x.selects)
  w

/-- sparse_sd_vector::serialize (sparse_sd_vector.hpp:195-209), and the same text in sparse_hyb_vector.hpp:180-194 -/
def SparseObject.serializeC (A : CountingPrims α) (x : SparseObject) : Out α :=
  let w := Out.start
  let w := w.write (A.encSize x.u)
  let w := w.count A.sizeOf
  if x.u = 0 then w
  else w.add (A.sd x.bits)

/-- rle_string::serialize (rle_string.hpp:419-441): `runs_per_letter[i]` for `i < 256`; reading past the end of the vector is a fault -/
def RleObject.serializeC (A : CountingPrims α) (x : RleObject) : Option (Out α) :=
  let w := Out.start
  let w := w.write (A.encSize x.n)
  let w := w.write (A.encSize x.R)
  let w := w.write (A.encSize x.B)
  let w := w.count (A.sizeOf + A.sizeOf + A.sizeOf)
  if x.n = 0 then some w
  else do
    let w := w.add (x.runs.serializeC A)
    let w ← (List.range 256).foldlM (fun w i => do
      let r ← x.perLetter[i]?
      return w.add (r.serializeC A)) w
    return w.add (A.wt x.heads)

/-- rle_string::print_space (rle_string.hpp:475-515), the number it returns; the streams it writes to are thrown away -/
def RleObject.printSpace (A : CountingPrims α) (x : RleObject) : Nat :=
  let tot := 0
  let tot := tot + (x.runs.serializeC A).ret
  let tot := tot + x.perLetter.foldl (fun s r => s + (r.serializeC A).ret) 0
  tot + (A.wt x.heads).ret

/-- sdsl::serialize of an item of an index -/
def Item.serializeC (A : CountingPrims α) (left : Bool) (x : Item) : Out α :=
  match x with
  | .alphabet a => A.alphabet a
  | .bwtRle S => (RLEObject.ofString .sd S).serializeC A .sd
  | .psi P => P.serializeC A left
  | .ints l => A.ints l
  | .sdVector bv => A.sd bv
  | .bitVector bv => A.bits bv
  | .sdRank _ => .start
  | .sdSelect _ => .start
  | .bitRank0 d _ => A.support .rank0 d
  | .bitRank1 d _ => A.support .rank1 d
  | .bitSelect1 d _ => A.support .select1 d

namespace Object
variable (A : CountingPrims α) (left : Bool) (I : Object) (S : Storage)

/-- serializeItem (index_base.h:166-178), with the suffixes of serializeRank and serializeSelect (180-194): sdsl::serialize_empty_object writes
    nothing and returns 0 -/
def itemC (slot : Slot) (part : Part) (ty : ItemType) : Out α :=
  match S.get ty (I.keys slot ++ part.suffix) with
  | some x => x.serializeC A left
  | none => .start

/-- RIndex::serialize (r_index.h:50-68) -/
def rIndexC : Out α :=
  let w := Out.start
  let w := w.add (I.itemC A left S .alphabet .self .alphabet)
  let w := w.add (I.itemC A left S .navigate .self .bwtRle)
  let w := w.add (I.itemC A left S .samples .self .ints)
  let w := w.add (I.itemC A left S .marks .self .sdVector)
  let w := w.add (I.itemC A left S .marks .rank .sdRank)
  let w := w.add (I.itemC A left S .marks .select .sdSelect)
  let w := w.add (I.itemC A left S .markToSample .self .ints)
  w

/-- SrIndex::serialize (sr_index.h:49-64) -/
def srIndexC : Out α :=
  let w := Out.start
  let w := w.add (A.size I.rate)
  let w := w.add (I.rIndexC A left S)
  let w := w.add (I.itemC A left S .samplesIdx .self I.bv.ty)
  let w := w.add (I.itemC A left S .samplesIdx .rank I.bv.rankTy)
  w

/-- the serialize of the classes ..ValidMark over one (sr_index.h:272-280, sr_csa.h:579-588, sr_csa_psi.h:319-327) -/
def validMarkC (base : Out α) : Out α :=
  let w := base
  let w := w.add (I.itemC A left S .validMarks .self .bitVector)
  w

/-- the serialize of the classes ..ValidArea over ..ValidMark (sr_index.h:375-386, sr_csa.h:680-691, sr_csa_psi.h:406-420) -/
def validAreaC (base : Out α) : Out α :=
  let w := base
  let w := w.add (I.itemC A left S .validMarks .rank .bitRank0)
  let w := w.add (I.itemC A left S .validAreas .self .ints)
  w

/-- RCSAWithBWTRun::serialize (r_csa.h:52-70) and RCSAWithPsiRun::serialize (r_csa.h:415-433) -/
def rcsaC : Out α :=
  let w := Out.start
  let w := w.add (I.itemC A left S .alphabet .self .alphabet)
  let w := w.add (I.itemC A left S .navigate .self .psi)
  let w := w.add (I.itemC A left S .samples .self .ints)
  let w := w.add (I.itemC A left S .marks .self .sdVector)
  let w := w.add (I.itemC A left S .marks .rank .sdRank)
  let w := w.add (I.itemC A left S .marks .select .sdSelect)
  let w := w.add (I.itemC A left S .markToSample .self .ints)
  w

/-- SrCSABase::serialize (sr_csa.h:50-59) -/
def srCSABaseC : Out α :=
  let w := Out.start
  let w := w.add (A.size I.rate)
  let w := w.add (I.rcsaC A left S)
  w

/-- SrCSASlim::serialize (sr_csa.h:181-197) over SrCSABase, SrCSAWithPsiRun::serialize (sr_csa_psi.h:47-63) over RCSAWithPsiRun -/
def slimC (base : Out α) : Out α :=
  let w := Out.start
  let w := w.add base
  let w := w.add (I.itemC A left S .samplesIdx .self I.bv.ty)
  let w := w.add (I.itemC A left S .samplesIdx .rank I.bv.rankTy)
  let w := w.add (I.itemC A left S .runCumulativeCount .self .ints)
  w

/-- SrCSA::serialize (sr_csa.h:399-413) -/
def srCSAC : Out α :=
  let w := Out.start
  let w := w.add (I.srCSABaseC A left S)
  let w := w.add (I.itemC A left S .samplesIdx .self I.bv.ty)
  let w := w.add (I.itemC A left S .samplesIdx .rank I.bv.rankTy)
  let w := w.add (I.itemC A left S .samplesIdx .select I.bv.selectTy)
  w

/-- serialize of each class, by the classes it derives from -/
def serializeC : Out α :=
  match I.type with
  | .rIndex => I.rIndexC A left S
  | .srIndex => I.srIndexC A left S
  | .srIndexValidMark => I.validMarkC A left S (I.srIndexC A left S)
  | .srIndexValidArea => I.validAreaC A left S (I.validMarkC A left S (I.srIndexC A left S))
  | .rcsaWithBWTRun => I.rcsaC A left S
  | .rcsaWithPsiRun => I.rcsaC A left S
  | .srCSA => I.srCSAC A left S
  | .srCSASlim => I.slimC A left S (I.srCSABaseC A left S)
  | .srCSAValidMark => I.validMarkC A left S (I.srCSAC A left S)
  | .srCSAValidArea => I.validAreaC A left S (I.validMarkC A left S (I.srCSAC A left S))
  | .srCSASlimValidMark => I.validMarkC A left S (I.slimC A left S (I.srCSABaseC A left S))
  | .srCSASlimValidArea => I.validAreaC A left S (I.validMarkC A left S (I.slimC A left S (I.srCSABaseC A left S)))
  | .srCSAWithPsiRun => I.slimC A left S (I.rcsaC A left S)
  | .psiValidMark => I.validMarkC A left S (I.slimC A left S (I.rcsaC A left S))
  | .psiValidArea => I.validAreaC A left S (I.validMarkC A left S (I.slimC A left S (I.rcsaC A left S)))

end Object
end Sri

import Verif.Model.ByteCount
/-! # The structure tree that serialize fills

The second argument of every serialize is a node of a `sdsl::structure_tree`, under which the callee files a node of its own with the bytes it has
written; `sdsl::write_structure` prints that tree. Here the functions of Model/ByteCount.lean are followed once more with the tree.

The tree is sdsl's (contract of sdsl/structure_tree.hpp): a node has a size and a map of children, whose keys are the name of the child followed
by its type. `add_child` hands out the child under the key, and makes one of size 0 if there is none; `add_size` adds to the size of a node; both
do nothing for `nullptr`. `sdsl::util::class_name` is the name of the dynamic type of its argument, without the template arguments (contract of
sdsl/util.hpp: `typeid(t)` of a reference to a class with virtual functions). Simplification: the serialize of a type of sdsl files one node with the number it
returns and nothing below it. -/
namespace Sri
set_option autoImplicit false

/-- a node, by the keys of the children on the way to it -/
abbrev NodePath := List String

/-- the sizes of the nodes there are -/
abbrev SizeTree := NodePath → Option Nat

namespace SizeTree

/-- structure_tree::add_child (contract of sdsl/structure_tree.hpp) -/
def addChild (t : SizeTree) (v : Option NodePath) (name type : String) : Option NodePath × SizeTree :=
  match v with
  | none => (none, t)
  | some p =>
    let c := p ++ [name ++ type]
    (some c, fun x => if x = c then some ((t c).getD 0) else t x)

/-- structure_tree::add_size (contract of sdsl/structure_tree.hpp) -/
def addSize (t : SizeTree) (v : Option NodePath) (k : Nat) : SizeTree :=
  match v with
  | none => t
  | some p => fun x => if x = p then (t p).map (· + k) else t x

end SizeTree

/-- a call that writes to a stream and files nodes in a tree -/
abbrev Filing (α : Type) := SizeTree → Out α × SizeTree

namespace Filing
variable {α : Type}

/-- `size_type written_bytes = 0;` -/
def start : Filing α := fun t => (.start, t)

/-- `written_bytes += f(out, ..);` -/
def add (f g : Filing α) : Filing α := fun t =>
  let a := f t
  let b := g a.2
  (a.1.add b.1, b.2)

/-- `add_child`, what is done with the child, `add_size` with the bytes of that -/
def node (v : Option NodePath) (name type : String) (body : Option NodePath → Filing α) : Filing α := fun t =>
  let (child, t) := t.addChild v name type
  let (w, t) := body child t
  (w, t.addSize child w.ret)

/-- the serialize of a type of sdsl, also write_member and serialize_empty_object (contract of sdsl/io.hpp): a node of its own -/
def leaf (o : Out α) (type : String) (v : Option NodePath) (name : String) : Filing α :=
  node v name type (fun _ t => (o, t))

end Filing

namespace CountingPrims
variable {α : Type} (A : CountingPrims α)

/-- the calls of sdsl, with the class that the node shows -/
def sizeT (x : Nat) := Filing.leaf (A.size x) "unsigned long"
def intsT (x : List Nat) := Filing.leaf (A.ints x) "sdsl::int_vector"
def bitsT (x : List Bool) := Filing.leaf (A.bits x) "sdsl::int_vector"
def sdT (x : List Bool) := Filing.leaf (A.sd x) "sdsl::sd_vector"
def wtT (x : List Nat) := Filing.leaf (A.wt x) "sdsl::wt_pc"
def alphabetT (x : Alphabet) := Filing.leaf (A.alphabet x) "sdsl::byte_alphabet"
def bvT (b : BvKind) (x : List Bool) := match b with | .sd => A.sdT x | .plain => A.bitsT x

/-- the name of the class of a support -/
def supportName (b : BvKind) (k : SupportKind) : String :=
  match b, k with
  | .sd, .rank0 => "sdsl::rank_support_sd"
  | .sd, .rank1 => "sdsl::rank_support_sd"
  | .sd, .select1 => "sdsl::select_support_sd"
  | .plain, .rank0 => "sdsl::rank_support_v"
  | .plain, .rank1 => "sdsl::rank_support_v"
  | .plain, .select1 => "sdsl::select_support_mcl"

def supportT (b : BvKind) (k : SupportKind) (s : Support) := Filing.leaf (A.supportOf b k s) (supportName b k)

/-- sdsl::serialize of a std::vector (contract of sdsl/io.hpp): write_member of the size, then serialize_vector, which files one node for the
    elements, each of them under it with the name `[]`, and none when there is no element -/
def vecT {β : Type} (cls : String) (e : β → Option NodePath → String → Filing α) (l : List β) (v : Option NodePath) (name : String) : Filing α :=
  (A.sizeT l.length v name).add
    (match l with
    | [] => Filing.start
    | _ :: _ => Filing.node v name ("std::vector<" ++ cls ++ ">") (fun child =>
        l.foldl (fun f x => f.add (e x child "[]")) Filing.start))

end CountingPrims

variable {α : Type}

/-- RLEString::BitVector::serialize (rle_string.hpp:1041-1052) -/
def BVObject.serializeT (A : CountingPrims α) (b : BvKind) (x : BVObject) (v : Option NodePath) (name : String) : Filing α :=
  Filing.node v name "sri::RLEString" (fun child =>
    let w := Filing.start
    let w := w.add (A.bvT b x.data child "data")
    let w := w.add (A.supportT b .rank1 x.rank child "rank")
    let w := w.add (A.supportT b .select1 x.select child "select")
    w)

/-- RLEString::serialize (rle_string.hpp:877-892) -/
def RLEObject.serializeT (A : CountingPrims α) (b : BvKind) (x : RLEObject) (v : Option NodePath) (name : String) : Filing α :=
  Filing.node v name "sri::RLEString" (fun child =>
    let w := Filing.start
    let w := w.add (A.sizeT x.r child "m_r")
    let w := w.add (A.sizeT x.b child "m_b")
    let w := w.add (A.wtT x.runHeads child "m_run_heads")
    let w := w.add (x.runs.serializeT A b child "m_runs")
    let w := w.add (A.vecT "sri::RLEString" (·.serializeT A b) x.perSym child "m_runs_per_symbol")
    w)

/-- enc_vector::serialize (enc_vector.hpp:346-355) -/
def EncVector.serializeT (A : CountingPrims α) (E : EncVector) (v : Option NodePath) (name : String) : Filing α :=
  Filing.node v name "sri::enc_vector" (fun child =>
    let w := Filing.start
    let w := w.add (A.sizeT E.size child "size")
    let w := w.add (A.bitsT E.z child "encoded deltas")
    let w := w.add (A.intsT E.sp child "samples_and_pointers")
    w)

/-- std::serialize of a pair (io.h:16-23): both under the node and the name it got. The bytes are those of `pairSerialize`; the nodes of the
    operand that is evaluated first come first. -/
def pairSerializeT (left : Bool) (a b : Filing α) : Filing α := fun t =>
  if left then
    let x := a t
    let y := b x.2
    (pairSerialize left x.1 y.1, y.2)
  else
    let y := b t
    let x := a y.2
    (pairSerialize left x.1 y.1, x.2)

/-- PsiCoreRLE::serialize (psi.h:448-460) -/
def PsiCoreRLE.serializeT (A : CountingPrims α) (left : Bool) (P : PsiCoreRLE) (v : Option NodePath) (name : String) : Filing α :=
  Filing.node v name "sri::PsiCoreRLE" (fun child =>
    let w := Filing.start
    let w := w.add (A.sizeT P.n child "m_n")
    let w := w.add (A.sizeT P.first child "m_first_bwt_symbol")
    let w := w.add (A.vecT "std::pair" (fun q v name => pairSerializeT left (q.1.serializeT A v name) (A.intsT q.2 v name)) P.parts child
      "m_partial_psi")
    w)

/-- PsiCoreBV::serialize (psi.h:675-688) -/
def PsiBVObject.serializeT (A : CountingPrims α) (b : BvKind) (x : PsiBVObject) (v : Option NodePath) (name : String) : Filing α :=
  Filing.node v name "sri::PsiCoreBV" (fun child =>
    let w := Filing.start
    let w := w.add (A.sizeT x.n child "m_n")
    let w := w.add (A.sizeT x.first child "m_first_bwt_symbol")
    let w := w.add (A.vecT (match b with | .sd => "sdsl::sd_vector" | .plain => "sdsl::int_vector") (A.bvT b) x.parts child "m_partial_psi")
    let w := w.add (A.vecT (CountingPrims.supportName b .rank1) (A.supportT b .rank1) x.ranks child "m_rank_partial_psi")
    let w := w.add (A.vecT (CountingPrims.supportName b .select1) (A.supportT b .select1) x.selects child "m_select_partial_psi")
    w)

/-- the class of an item -/
def ItemType.className : ItemType → String
  | .alphabet => "sdsl::byte_alphabet"
  | .bwtRle => "sri::RLEString"
  | .psi => "sri::PsiCoreRLE"
  | .ints => "sdsl::int_vector"
  | .sdVector => "sdsl::sd_vector"
  | .bitVector => "sdsl::int_vector"
  | .sdRank => "sdsl::rank_support_sd"
  | .sdSelect => "sdsl::select_support_sd"
  | .bitRank0 => "sdsl::rank_support_v"
  | .bitRank1 => "sdsl::rank_support_v"
  | .bitSelect1 => "sdsl::select_support_mcl"

/-- sdsl::serialize of an item of an index -/
def Item.serializeT (A : CountingPrims α) (left : Bool) (x : Item) (v : Option NodePath) (name : String) : Filing α :=
  match x with
  | .alphabet a => A.alphabetT a v name
  | .bwtRle S => (RLEObject.ofString .sd S).serializeT A .sd v name
  | .psi P => P.serializeT A left v name
  | .ints l => A.intsT l v name
  | .sdVector bv => A.sdT bv v name
  | .bitVector bv => A.bitsT bv v name
  | .sdRank _ => Filing.leaf .start "sdsl::rank_support_sd" v name
  | .sdSelect _ => Filing.leaf .start "sdsl::select_support_sd" v name
  | .bitRank0 d _ => Filing.leaf (A.support .rank0 d) "sdsl::rank_support_v" v name
  | .bitRank1 d _ => Filing.leaf (A.support .rank1 d) "sdsl::rank_support_v" v name
  | .bitSelect1 d _ => Filing.leaf (A.support .select1 d) "sdsl::select_support_mcl" v name

/-- the class of an object, as class_name tells it inside each of its bases too -/
def IndexType.className : IndexType → String
  | .rIndex => "sri::RIndex"
  | .srIndex => "sri::SrIndex"
  | .srIndexValidMark => "sri::SrIndexValidMark"
  | .srIndexValidArea => "sri::SrIndexValidArea"
  | .rcsaWithBWTRun => "sri::RCSAWithBWTRun"
  | .rcsaWithPsiRun => "sri::RCSAWithPsiRun"
  | .srCSA => "sri::SrCSA"
  | .srCSASlim => "sri::SrCSASlim"
  | .srCSAValidMark => "sri::SrCSAValidMark"
  | .srCSAValidArea => "sri::SrCSAValidArea"
  | .srCSASlimValidMark => "sri::SrCSAValidMark"
  | .srCSASlimValidArea => "sri::SrCSAValidArea"
  | .srCSAWithPsiRun => "sri::SrCSAWithPsiRun"
  | .psiValidMark => "sri::SRCSAValidMark"
  | .psiValidArea => "sri::SRCSAValidArea"

namespace Object
variable (A : CountingPrims α) (left : Bool) (I : Object) (S : Storage)

/-- serializeItem (index_base.h:166-178), with the suffixes of serializeRank and serializeSelect (180-194) -/
def itemT (slot : Slot) (part : Part) (ty : ItemType) (child : Option NodePath) (name : String) : Filing α :=
  match S.get ty (I.keys slot ++ part.suffix) with
  | some x => x.serializeT A left child name
  | none => Filing.leaf .start ty.className child name

/-- `auto child = structure_tree::add_child(v, name, class_name(*this));` at the start of each serialize of an index, with no add_size at its end -/
def entered (v : Option NodePath) (name : String) (body : Option NodePath → Filing α) : Filing α := fun t =>
  let (child, t) := t.addChild v name I.type.className
  body child t

/-- RIndex::serialize (r_index.h:50-68) -/
def rIndexT (v : Option NodePath) (name : String) : Filing α :=
  I.entered v name (fun child =>
    let w := Filing.start
    let w := w.add (I.itemT A left S .alphabet .self .alphabet child "alphabet")
    let w := w.add (I.itemT A left S .navigate .self .bwtRle child "bwt")
    let w := w.add (I.itemT A left S .samples .self .ints child "samples")
    let w := w.add (I.itemT A left S .marks .self .sdVector child "marks")
    let w := w.add (I.itemT A left S .marks .rank .sdRank child "marks_rank")
    let w := w.add (I.itemT A left S .marks .select .sdSelect child "marks_select")
    let w := w.add (I.itemT A left S .markToSample .self .ints child "mark_to_sample")
    w)

/-- SrIndex::serialize (sr_index.h:49-64): the base is given `v`, not `child` -/
def srIndexT (v : Option NodePath) (name : String) : Filing α :=
  I.entered v name (fun child =>
    let w := Filing.start
    let w := w.add (A.sizeT I.rate child "subsample_rate")
    let w := w.add (I.rIndexT A left S v name)
    let w := w.add (I.itemT A left S .samplesIdx .self I.bv.ty child "samples_idx")
    let w := w.add (I.itemT A left S .samplesIdx .rank I.bv.rankTy child "samples_idx_rank")
    w)

/-- the serialize of the classes ..ValidMark over one (sr_index.h:272-280, sr_csa.h:579-588, sr_csa_psi.h:319-327) -/
def validMarkT (base : Option NodePath → String → Filing α) (v : Option NodePath) (name : String) : Filing α :=
  I.entered v name (fun child =>
    let w := base v name
    let w := w.add (I.itemT A left S .validMarks .self .bitVector child "valid_marks")
    w)

/-- the serialize of the classes ..ValidArea over ..ValidMark (sr_index.h:375-386, sr_csa.h:680-691, sr_csa_psi.h:406-420) -/
def validAreaT (base : Option NodePath → String → Filing α) (v : Option NodePath) (name : String) : Filing α :=
  I.entered v name (fun child =>
    let w := base v name
    let w := w.add (I.itemT A left S .validMarks .rank .bitRank0 child "valid_marks_rank")
    let w := w.add (I.itemT A left S .validAreas .self .ints child "valid_areas")
    w)

/-- RCSAWithBWTRun::serialize (r_csa.h:52-70) and RCSAWithPsiRun::serialize (r_csa.h:412-430) -/
def rcsaT (v : Option NodePath) (name : String) : Filing α :=
  I.entered v name (fun child =>
    let w := Filing.start
    let w := w.add (I.itemT A left S .alphabet .self .alphabet child "alphabet")
    let w := w.add (I.itemT A left S .navigate .self .psi child "psi")
    let w := w.add (I.itemT A left S .samples .self .ints child "samples")
    let w := w.add (I.itemT A left S .marks .self .sdVector child "marks")
    let w := w.add (I.itemT A left S .marks .rank .sdRank child "marks_rank")
    let w := w.add (I.itemT A left S .marks .select .sdSelect child "marks_select")
    let w := w.add (I.itemT A left S .markToSample .self .ints child "mark_to_sample")
    w)

/-- SrCSABase::serialize (sr_csa.h:51-60) -/
def srCSABaseT (v : Option NodePath) (name : String) : Filing α :=
  I.entered v name (fun child =>
    let w := Filing.start
    let w := w.add (A.sizeT I.rate child "subsample_rate")
    let w := w.add (I.rcsaT A left S v name)
    w)

/-- SrCSASlim::serialize (sr_csa.h:181-197) over SrCSABase, SrCSAWithPsiRun::serialize (sr_csa_psi.h:47-63) over RCSAWithPsiRun -/
def slimT (base : Option NodePath → String → Filing α) (v : Option NodePath) (name : String) : Filing α :=
  I.entered v name (fun child =>
    let w := Filing.start
    let w := w.add (base v name)
    let w := w.add (I.itemT A left S .samplesIdx .self I.bv.ty child "samples_idx")
    let w := w.add (I.itemT A left S .samplesIdx .rank I.bv.rankTy child "samples_idx_rank")
    let w := w.add (I.itemT A left S .runCumulativeCount .self .ints child "run_cumulative_count")
    w)

/-- SrCSA::serialize (sr_csa.h:399-413) -/
def srCSAT (v : Option NodePath) (name : String) : Filing α :=
  I.entered v name (fun child =>
    let w := Filing.start
    let w := w.add (I.srCSABaseT A left S v name)
    let w := w.add (I.itemT A left S .samplesIdx .self I.bv.ty child "samples_idx")
    let w := w.add (I.itemT A left S .samplesIdx .rank I.bv.rankTy child "samples_idx_rank")
    let w := w.add (I.itemT A left S .samplesIdx .select I.bv.selectTy child "samples_idx_select")
    w)

/-- serialize(out, v, name) of each class, by the classes it derives from -/
def serializeT (v : Option NodePath) (name : String) : Filing α :=
  let mark := fun base => I.validMarkT A left S base
  let area := fun base => I.validAreaT A left S (I.validMarkT A left S base)
  let slim := I.slimT A left S (I.srCSABaseT A left S)
  let psi := I.slimT A left S (I.rcsaT A left S)
  match I.type with
  | .rIndex => I.rIndexT A left S v name
  | .srIndex => I.srIndexT A left S v name
  | .srIndexValidMark => mark (I.srIndexT A left S) v name
  | .srIndexValidArea => area (I.srIndexT A left S) v name
  | .rcsaWithBWTRun => I.rcsaT A left S v name
  | .rcsaWithPsiRun => I.rcsaT A left S v name
  | .srCSA => I.srCSAT A left S v name
  | .srCSASlim => slim v name
  | .srCSAValidMark => mark (I.srCSAT A left S) v name
  | .srCSAValidArea => area (I.srCSAT A left S) v name
  | .srCSASlimValidMark => mark slim v name
  | .srCSASlimValidArea => area slim v name
  | .srCSAWithPsiRun => psi v name
  | .psiValidMark => mark psi v name
  | .psiValidArea => area psi v name

end Object
end Sri

import Verif.Model.Storage
/-! # Index objects: keys, load, serialize and queries over a storage

r_index.h, sr_index.h, r_csa.h, sr_csa.h, sr_csa_psi.h. The items have the default template arguments, except for the bit vector of the
samples (TBvSampleIdx, TBvSamplePos), which is sd_vector or bit_vector. -/
namespace Sri
set_option autoImplicit false

/-- the bit vector type of the samples: sdsl::sd_vector (the default) or sdsl::bit_vector -/
inductive BvKind where
  | sd | plain
deriving DecidableEq, Repr

def BvKind.ty : BvKind → ItemType
  | .sd => .sdVector
  | .plain => .bitVector

def BvKind.rankTy : BvKind → ItemType
  | .sd => .sdRank
  | .plain => .bitRank1

def BvKind.selectTy : BvKind → ItemType
  | .sd => .sdSelect
  | .plain => .bitSelect1

namespace IndexType

/-- the classes of sr_index.h, r_index.h over the run-length BWT -/
def overBWT : IndexType → Bool
  | rIndex | srIndex | srIndexValidMark | srIndexValidArea => true
  | _ => false

/-- the classes of r_csa.h and sr_csa_psi.h over the runs of psi -/
def overPsiRuns : IndexType → Bool
  | rcsaWithPsiRun | srCSAWithPsiRun | psiValidMark | psiValidArea => true
  | _ => false

/-- the classes with a subsampling rate -/
def sampled : IndexType → Bool
  | rIndex | rcsaWithBWTRun | rcsaWithPsiRun => false
  | _ => true

/-- the classes that load the cumulative number of runs (sr_csa.h:222, sr_csa_psi.h:88) -/
def counted : IndexType → Bool
  | srCSASlim | srCSASlimValidMark | srCSASlimValidArea | srCSAWithPsiRun | psiValidMark | psiValidArea => true
  | _ => false

/-- SrCSA and the classes over it, which keep sampled positions (sr_csa.h:379-563) -/
def overPositions : IndexType → Bool
  | srCSA | srCSAValidMark | srCSAValidArea => true
  | _ => false

def withMarks : IndexType → Bool
  | srIndexValidMark | srIndexValidArea | srCSAValidMark | srCSAValidArea | srCSASlimValidMark | srCSASlimValidArea
  | psiValidMark | psiValidArea => true
  | _ => false

def withAreas : IndexType → Bool
  | srIndexValidArea | srCSAValidArea | srCSASlimValidArea | psiValidArea => true
  | _ => false

/-- serialize writes the rate and load(istream) reads it in SrIndex (sr_index.h:41-56) and SrCSABase (sr_csa.h:42-58); SrCSAWithPsiRun
    overrides neither for the rate (sr_csa_psi.h:47-65, r_csa.h:408-411) -/
def rateInStream (t : IndexType) : Bool := t.sampled && !t.overPsiRuns

end IndexType

/-- setupKeyNames (r_index.h:81-87, sr_index.h:66-74, 284-293, 391-400, r_csa.h:80-86, 437-444, sr_csa.h:63-71, 200-211, 413-423, 590-601,
    697-707, sr_csa_psi.h:69-81, 334-339, 424-429) with the names of construct_base.h:19-54 and config.h:43-92: whether the prefix of the rate
    is put before the name, and the name. KEY_PSI of sdsl is "psi". Slots that a class does not use keep the empty name. -/
def keyName (t : IndexType) : Slot → Bool × Key
  | .alphabet => (false, "alphabet".toList)
  | .navigate => (false, if t.overBWT then "bwt_rle".toList else "psi".toList)
  | .samples =>
    (t.sampled,
      if t.overBWT then "bwt_run_last_text_pos".toList
      else if t.overPsiRuns then "psi_run_first_text_pos".toList
      else if t.counted then "bwt_run_first_text_pos".toList ++ "_sorted_alphabet".toList
      else "bwt_run_first_text_pos".toList)
  | .marks =>
    (t.sampled,
      if t.overBWT then (if t.sampled then "bwt_run_first_text_pos_by_last".toList else "bwt_run_first_text_pos".toList)
      else if t.overPsiRuns then "psi_run_last_text_pos".toList
      else if t.sampled then "bwt_run_last_text_pos_by_first".toList
      else "bwt_run_last_text_pos".toList)
  | .markToSample =>
    (t.sampled,
      if t.overBWT then "bwt_run_first_text_pos_sorted_to_last_idx".toList
      else if t.overPsiRuns then "psi_run_last_text_pos_asc_link".toList
      else if t.counted then "bwt_run_last_text_pos_sorted_to_first_idx".toList ++ "_sorted_alphabet".toList
      else "bwt_run_last_text_pos_sorted_to_first_idx".toList)
  | .samplesIdx =>
    if t.sampled then
      (true,
        if t.overBWT then "bwt_run_last_idx".toList
        else if t.overPsiRuns then "psi_run_first_idx".toList
        else if t.counted then "bwt_run_first_idx".toList ++ "_sorted_alphabet".toList
        else "bwt_run_first".toList)
    else (false, [])
  | .runCumulativeCount =>
    (false,
      if t.counted then (if t.overPsiRuns then "psi_run_cumulative_count".toList else "bwt_run_cumulative_count".toList)
      else [])
  | .validMarks =>
    if t.withMarks then
      (true,
        if t.overBWT then "bwt_run_first_text_pos_sorted_valid_mark".toList
        else if t.overPsiRuns then "psi_run_last_text_pos_asc_valid_mark".toList
        else "bwt_run_last_text_pos_sorted_valid_mark".toList)
    else (false, [])
  | .validAreas =>
    if t.withAreas then
      (true,
        if t.overBWT then "bwt_run_first_text_pos_sorted_valid_area".toList
        else if t.overPsiRuns then "psi_run_last_text_pos_asc_valid_area".toList
        else "bwt_run_last_text_pos_sorted_valid_area".toList)
    else (false, [])

/-- the key of a slot, given key_prefix_ -/
def keyOf (t : IndexType) (pre : Key) (slot : Slot) : Key :=
  let (b, name) := keyName t slot
  if b then pre ++ name else name

/-- `std::to_string(rate) + "_"` (sr_index.h:27, 30, sr_csa.h:26, 30, sr_csa_psi.h:33, 36) -/
def ratePrefix (s : Nat) : Key := Nat.toDigits 10 s ++ ['_']

/-- type of the item of slot NAVIGATE -/
def navTy (t : IndexType) : ItemType := if t.overBWT then .bwtRle else .psi

/-- loadAllItems (r_index.h:89-101, sr_index.h:79-86, 297-302, 402-411, r_csa.h:88-103, 446-464, sr_csa.h:215-224, 427-436, 605-610, 711-719,
    sr_csa_psi.h:85-92, 341-345, 434-440) -/
def loadAllItems (t : IndexType) (b : BvKind) : List Access :=
  [ ⟨.alphabet, .self, .alphabet, .alphabet, false⟩,
    ⟨.navigate, .self, navTy t, navTy t, !t.overBWT⟩,
    ⟨.samples, .self, .ints, .ints, t.overPsiRuns⟩,
    ⟨.marks, .self, .sdVector, .sdVector, true⟩,
    ⟨.marks, .rank, .sdVector, .sdRank, true⟩,
    ⟨.marks, .select, .sdVector, .sdSelect, true⟩,
    ⟨.markToSample, .self, .ints, .ints, t.overPsiRuns⟩ ]
  ++ (if t.sampled then [⟨.samplesIdx, .self, b.ty, b.ty, true⟩, ⟨.samplesIdx, .rank, b.ty, b.rankTy, true⟩] else [])
  ++ (if t.counted then [⟨.runCumulativeCount, .self, .ints, .ints, t.overPsiRuns⟩] else [])
  ++ (if t.withMarks then [⟨.validMarks, .self, .bitVector, .bitVector, true⟩] else [])
  ++ (if t.withAreas then
        [⟨.validMarks, .rank, .bitVector, .bitRank0, true⟩, ⟨.validAreas, .self, .ints, .ints, t.overPsiRuns⟩]
      else [])

/-- the accesses of constructIndex to items that loadAllItems has not loaded: constructSplitRangeInBWTRuns of SrCSA (sr_csa.h:520-522). The
    other accesses of constructIndex are to items already loaded, with the same key and type, and change nothing. -/
def constructAccesses (t : IndexType) (b : BvKind) : List Access :=
  if t.overPositions then [⟨.samplesIdx, .select, b.ty, b.selectTy, true⟩] else []

/-- serialize (r_index.h:49-68, sr_index.h:52-68, 271-280, 374-386, r_csa.h:52-72, 415-434, sr_csa.h:50-58, 177-195, 396-411, 578-587, 681-692,
    sr_csa_psi.h:47-65, 316-326, 404-418), after the rate -/
def writes (t : IndexType) (b : BvKind) : List Write :=
  [ ⟨.alphabet, .self, .alphabet⟩, ⟨.navigate, .self, navTy t⟩, ⟨.samples, .self, .ints⟩, ⟨.marks, .self, .sdVector⟩,
    ⟨.marks, .rank, .sdRank⟩, ⟨.marks, .select, .sdSelect⟩, ⟨.markToSample, .self, .ints⟩ ]
  ++ (if t.sampled then [⟨.samplesIdx, .self, b.ty⟩, ⟨.samplesIdx, .rank, b.rankTy⟩] else [])
  ++ (if t.overPositions then [⟨.samplesIdx, .select, b.selectTy⟩] else [])
  ++ (if t.counted then [⟨.runCumulativeCount, .self, .ints⟩] else [])
  ++ (if t.withMarks then [⟨.validMarks, .self, .bitVector⟩] else [])
  ++ (if t.withAreas then [⟨.validMarks, .rank, .bitRank0⟩, ⟨.validAreas, .self, .ints⟩] else [])

/-- an index object: its class, its members subsample_rate_ and key_prefix_, and the names its keys_ array holds (set by load). The
    storage is kept apart, because several objects can share one. -/
structure Object where
  type : IndexType
  bv : BvKind
  rate : Nat
  pre : Key
  keys : Slot → Key

/-- the constructors: with a rate, `some s`, or the default one (sr_index.h:25-33, sr_csa.h:24-33, sr_csa_psi.h:32-39; `subsample_rate_ = 1` and
    an empty prefix). Classes without a rate have only the latter. -/
def Object.fresh (t : IndexType) (b : BvKind) (s : Option Nat) : Object :=
  match s with
  | some s => { type := t, bv := b, rate := s, pre := ratePrefix s, keys := fun _ => [] }
  | none => { type := t, bv := b, rate := 1, pre := [], keys := fun _ => [] }

namespace Object
variable {α : Type} (K : Codec α)

/-- loadInner (r_index.h:75-79, r_csa.h:74-78, 430-434): setupKeyNames, loadAllItems, constructIndex -/
def loadInner (I : Object) (st : LoadState α) : Option (Object × LoadState α) := do
  let I := { I with keys := keyOf I.type I.pre }
  let st ← LoadState.runAll K I.keys (loadAllItems I.type I.bv ++ constructAccesses I.type I.bv) st
  return (I, st)

/-- `load(Config)` (r_index.h:38-41, sr_index.h:35-38, r_csa.h:40-43, 403-406, sr_csa.h:37-40) -/
def loadCache (I : Object) (S : Storage) (C : Cache) : Option (Object × Storage) := do
  let (I, st) ← loadInner K I { storage := S, source := .cache C }
  return (I, st.storage)

/-- `load(std::istream&)` (r_index.h:43-46, sr_index.h:40-44, r_csa.h:45-48, 408-411, sr_csa.h:42-46): the rate is replaced by the one in the
    stream, the prefix of the keys is not -/
def loadStream (I : Object) (S : Storage) (bytes : List α) : Option (Object × Storage × List α) := do
  let (I, bytes) ← (if I.type.rateInStream then do
      let (s, bytes) ← K.decSize bytes
      return ({ I with rate := s }, bytes)
    else some (I, bytes))
  let (I, st) ← loadInner K I { storage := S, source := .stream bytes }
  match st.source with
  | .stream rest => return (I, st.storage, rest)
  | .cache _ => none

/-- `serialize(out)` -/
def serialize (I : Object) (S : Storage) : List α :=
  (if I.type.rateInStream then K.encSize I.rate else []) ++ (writes I.type I.bv).flatMap (serializeItem K S I.keys)

end Object

/-- the items of an index by meaning; those a class has not are empty -/
structure Parts where
  alphabet : Alphabet
  nav : Item
  samples : List Nat
  marks : List Bool
  markToSample : List Nat
  samplesIdx : List Bool
  cumRuns : List Nat
  validMarks : List Bool
  validAreas : List Nat
deriving DecidableEq, Repr

def Storage.getInts (S : Storage) (k : Key) : Option (List Nat) :=
  match S.get .ints k with
  | some (.ints l) => some l
  | _ => none

/-- the bit vector under a key, when every support in `sup` (type and key) answers for it -/
def Storage.getBits (S : Storage) (ty : ItemType) (k : Key) (sup : List (ItemType × Key)) : Option (List Bool) := do
  let x ← S.get ty k
  let bv ← x.bits
  let ys ← sup.mapM (fun q => S.get q.1 q.2)
  assertC (ys.all (Item.supports bv))
  return bv

/-- the items that the functors of a loaded index refer to, read from the storage at the time of a query: constructIndex takes references
    into the storage (index_base.h:125-165) -/
def collect (t : IndexType) (b : BvKind) (keys : Slot → Key) (S : Storage) : Option Parts := do
  let a ← (match S.get .alphabet (keys .alphabet) with
    | some (.alphabet a) => some a
    | _ => none)
  let nav ← S.get (navTy t) (keys .navigate)
  let samples ← S.getInts (keys .samples)
  let marks ← S.getBits .sdVector (keys .marks)
    [(.sdRank, keys .marks ++ Part.rank.suffix), (.sdSelect, keys .marks ++ Part.select.suffix)]
  let links ← S.getInts (keys .markToSample)
  let idx ← (if t.sampled then
      S.getBits b.ty (keys .samplesIdx)
        ((b.rankTy, keys .samplesIdx ++ Part.rank.suffix) ::
          (if t.overPositions then [(b.selectTy, keys .samplesIdx ++ Part.select.suffix)] else []))
    else some [])
  let cum ← (if t.counted then S.getInts (keys .runCumulativeCount) else some [])
  let vm ← (if t.withMarks then
      S.getBits .bitVector (keys .validMarks) (if t.withAreas then [(.bitRank0, keys .validMarks ++ Part.rank.suffix)] else [])
    else some [])
  let va ← (if t.withAreas then S.getInts (keys .validAreas) else some [])
  return { alphabet := a, nav := nav, samples := samples, marks := marks, markToSample := links, samplesIdx := idx, cumRuns := cum,
           validMarks := vm, validAreas := va }

namespace Parts

/-- the members of a class over the run-length BWT; `n_` is `C[sigma]` (r_index.h:159) -/
def rIndex (p : Parts) : Option RIndex := do
  let n ← p.alphabet.C[p.alphabet.sigma]?
  match p.nav with
  | .bwtRle b => return { alphabet := p.alphabet, bwtRle := b, samples := p.samples, marks := p.marks, markToSample := p.markToSample, n := n }
  | _ => none

def srIndex (p : Parts) (s : Nat) : Option SrIndex := do
  let I ← p.rIndex
  return { base := I, samplesIdx := p.samplesIdx, s := s }

def srIndexValid (p : Parts) (s : Nat) : Option SrIndexValid := do
  let I ← p.srIndex s
  return { sr := I, validMarks := p.validMarks, validAreas := p.validAreas }

/-- the members of a class over psi; `n_` is `C[sigma]` (r_csa.h:163) -/
def rcsa (p : Parts) : Option RCSA := do
  let n ← p.alphabet.C[p.alphabet.sigma]?
  match p.nav with
  | .psi b => return { alphabet := p.alphabet, psi := b, n := n, samples := p.samples, marks := p.marks, markToSample := p.markToSample }
  | _ => none

def srCSA (p : Parts) (s : Nat) : Option SrCSA := do
  let I ← p.rcsa
  return { toRCSA := I, samplesIdx := p.samplesIdx, cumRuns := p.cumRuns, s := s }

def srCSAValid (p : Parts) (s : Nat) : Option SrCSAValid := do
  let I ← p.srCSA s
  return { csa := I, validMarks := p.validMarks, validAreas := p.validAreas }

/-- constructIndex: the queries of a class over its items, at the rate that subsample_rate_ holds -/
def assemble (p : Parts) (t : IndexType) (s : Nat) : Option Queries :=
  match t with
  | .rIndex => p.rIndex.map (fun I => ⟨I.count, I.locate⟩)
  | .srIndex => (p.srIndex s).map (fun I => ⟨I.count, I.locate⟩)
  | .srIndexValidMark => (p.srIndexValid s).map (fun I => ⟨I.countMark, I.locateMark⟩)
  | .srIndexValidArea => (p.srIndexValid s).map (fun I => ⟨I.countArea, I.locateArea⟩)
  | .rcsaWithBWTRun => p.rcsa.map (fun I => ⟨RCSABwt.count I, RCSABwt.locate I⟩)
  | .rcsaWithPsiRun => p.rcsa.map (fun I => ⟨RCSAPsi.count I, RCSAPsi.locate I⟩)
  | .srCSA => (p.srCSA s).map (fun I => ⟨I.count, I.locate⟩)
  | .srCSASlim => (p.srCSA s).map (fun I => ⟨I.countSlim, I.locateSlim⟩)
  | .srCSAValidMark => (p.srCSAValid s).map (fun I => ⟨I.countMark, I.locateMark⟩)
  | .srCSAValidArea => (p.srCSAValid s).map (fun I => ⟨I.countArea, I.locateArea⟩)
  | .srCSASlimValidMark => (p.srCSAValid s).map (fun I => ⟨I.countMarkSlim, I.locateMarkSlim⟩)
  | .srCSASlimValidArea => (p.srCSAValid s).map (fun I => ⟨I.countAreaSlim, I.locateAreaSlim⟩)
  | .srCSAWithPsiRun => (p.srCSA s).map (fun I => ⟨I.countSlim, I.locateSlim⟩)
  | .psiValidMark => (p.srCSAValid s).map (fun I => ⟨I.countMarkSlim, I.locateMarkSlim⟩)
  | .psiValidArea => (p.srCSAValid s).map (fun I => ⟨I.countAreaSlim, I.locateAreaSlim⟩)

end Parts

/-- the queries of a loaded index object over its storage; `none` when the object holds no usable index -/
def Object.queries (I : Object) (S : Storage) : Option Queries := do
  let p ← collect I.type I.bv I.keys S
  p.assemble I.type I.rate

end Sri

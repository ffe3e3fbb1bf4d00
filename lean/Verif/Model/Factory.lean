import Verif.Model.Items
import Verif.Model.CSARaw
/-! # The index factories of the benchmarks: benchmark/sr-index/factory.h and benchmark/sr-csa/factory.h

Both are class templates with the same text but for IndexEnum and the cases of `make`. Index classes have their default template arguments
except for the bit vector of the samples, which is a parameter as in Objects.lean. -/
namespace Sri
set_option autoImplicit false

/-! ## CSARaw over a storage -/

namespace CSARaw

/-- the keys that CSARaw uses: setupKeyNames is that of RCSAWithBWTRun (r_csa.h:80-86) and the suffix array is kept under sdsl's KEY_SA
    (r_csa.h:299, 324), which is "sa". It has no slot; `samples`, which the class does not use, stands for it here. -/
def keys : Slot → Key
  | .samples => "sa".toList
  | slot => keyOf .rcsaWithBWTRun [] slot

/-- loadAllItems (r_csa.h:296-300); constructIndex (r_csa.h:306-335) accesses the same items again -/
def loads : List Access :=
  [⟨.alphabet, .self, .alphabet, .alphabet, false⟩, ⟨.navigate, .self, .psi, .psi, true⟩, ⟨.samples, .self, .ints, .ints, false⟩]

/-- the items that serialize writes (r_csa.h:278-291) -/
def writes : List Write := [⟨.alphabet, .self, .alphabet⟩, ⟨.navigate, .self, .psi⟩, ⟨.samples, .self, .ints⟩]

/-- `load(Config)` of CSARaw, inherited from RCSAWithBWTRun (r_csa.h:40-43, 74-78) -/
def loadCache {α : Type} (K : Codec α) (S : Storage) (C : Cache) : Option Storage := do
  let st ← LoadState.runAll K keys loads { storage := S, source := .cache C }
  return st.storage

/-- the queries of a loaded CSARaw: constructIndex takes references to the items in the storage (r_csa.h:306-335) -/
def queriesOf (S : Storage) : Option Queries := do
  let a ← (match S.get .alphabet (keys .alphabet) with
    | some (.alphabet a) => some a
    | _ => none)
  let psi ← (match S.get .psi (keys .navigate) with
    | some (.psi p) => some p
    | _ => none)
  let sa ← S.getInts (keys .samples)
  let I ← ofItems a psi sa
  return ⟨I.count, I.locate⟩

end CSARaw

/-! ## Factories -/

/-- `std::shared_ptr<sri::LocateIndex>` (factory.h:45 of both): a loaded index object over the storage of the factory -/
inductive Handle where
  | index (I : Object)
  | raw

namespace Handle

/-- Count and Locate of the object, on the contents that the storage has at the time of the call -/
def queries (S : Storage) : Handle → Option Queries
  | .index I => I.queries S
  | .raw => CSARaw.queriesOf S

/-- what `serialize` writes -/
def serialize {α : Type} (K : Codec α) (S : Storage) : Handle → List α
  | .index I => I.serialize K S
  | .raw => CSARaw.writes.flatMap (serializeItem K S CSARaw.keys)

/-- the key of the alphabet -/
def alphabetKey : Handle → Key
  | .index I => I.keys .alphabet
  | .raw => CSARaw.keys .alphabet

/-- `sizeSequence()` (index_base.h:57): the member n_, set by constructLF to `C[sigma]` of the alphabet in the storage (r_index.h:159,
    r_csa.h:167, 529, sr_index.h:200). Items never change, so n_ is read off the storage here. -/
def sizeSequence (S : Storage) (h : Handle) : Option Nat :=
  match S.get .alphabet h.alphabetKey with
  | some (.alphabet a) => a.C[a.sigma]?
  | _ => none

end Handle

/-- the part of a factory that depends on its IndexEnum: the numbers of the enumerators and the class that each case of `make` creates;
    `none` stands for CSARaw -/
structure FactoryKind where
  Enum : Type
  ord : Enum → Nat
  cls : Enum → Option IndexType

/-- IndexEnum of benchmark/sr-index/factory.h:22-27 -/
inductive RiEnum where
  | rIndex | srIndex | srIndexVM | srIndexVA
deriving DecidableEq, Repr

/-- benchmark/sr-index/factory.h:22-27 and the cases of `make` (56-86) -/
def riFactory : FactoryKind where
  Enum := RiEnum
  ord
    | .rIndex => 0
    | .srIndex => 1
    | .srIndexVM => 2
    | .srIndexVA => 3
  cls
    | .rIndex => some .rIndex
    | .srIndex => some .srIndex
    | .srIndexVM => some .srIndexValidMark
    | .srIndexVA => some .srIndexValidArea

/-- IndexEnum of benchmark/sr-csa/factory.h:23-36 -/
inductive CsaEnum where
  | rCSA | csaRaw | srCSA | srCSAVM | srCSAVA | srCSASlim | srCSASlimVM | srCSASlimVA | rCSAPsiRuns | srCSAPsiRuns | srCSAPsiRunsVM | srCSAPsiRunsVA
deriving DecidableEq, Repr

/-- benchmark/sr-csa/factory.h:23-36 and the cases of `make` (66-156) -/
def csaFactory : FactoryKind where
  Enum := CsaEnum
  ord
    | .rCSA => 0
    | .csaRaw => 1
    | .srCSA => 2
    | .srCSAVM => 3
    | .srCSAVA => 4
    | .srCSASlim => 5
    | .srCSASlimVM => 6
    | .srCSASlimVA => 7
    | .rCSAPsiRuns => 8
    | .srCSAPsiRuns => 9
    | .srCSAPsiRunsVM => 10
    | .srCSAPsiRunsVA => 11
  cls
    | .rCSA => some .rcsaWithBWTRun
    | .csaRaw => none
    | .srCSA => some .srCSA
    | .srCSAVM => some .srCSAValidMark
    | .srCSAVA => some .srCSAValidArea
    | .srCSASlim => some .srCSASlim
    | .srCSASlimVM => some .srCSASlimValidMark
    | .srCSASlimVA => some .srCSASlimValidArea
    | .rCSAPsiRuns => some .rcsaWithPsiRun
    | .srCSAPsiRuns => some .srCSAWithPsiRun
    | .srCSAPsiRunsVM => some .psiValidMark
    | .srCSAPsiRunsVA => some .psiValidArea

namespace FactoryKind
variable (F : FactoryKind)

/-- `Config` (benchmark/sr-index/factory.h:29-32, benchmark/sr-csa/factory.h:38-40) -/
structure Request where
  type : F.Enum
  samplingSize : Nat

/-- `Config::operator<` (benchmark/sr-index/factory.h:33-35, benchmark/sr-csa/factory.h:42-44) -/
def Request.lt {F : FactoryKind} (a b : F.Request) : Bool :=
  decide (F.ord a.type < F.ord b.type) || (decide (F.ord a.type = F.ord b.type) && decide (a.samplingSize < b.samplingSize))

/-- struct Index (benchmark/sr-index/factory.h:44-47, benchmark/sr-csa/factory.h:54-57) -/
structure Made where
  idx : Handle
  size : Nat

/-- the members n_, storage_ and indexes_; config_ is the cache that `make` gets -/
structure State where
  n : Nat
  storage : Storage
  indexes : List (F.Request × Made)

/-- the constructor (benchmark/sr-index/factory.h:38-41, benchmark/sr-csa/factory.h:48-51): the number of symbols in the file of the BWT -/
def new (bwt : List Nat) : F.State := { n := bwt.length, storage := [], indexes := [] }

/-- `sizeSequence()` of a factory -/
def State.sizeSequence {F : FactoryKind} (st : F.State) : Nat := st.n

/-- `indexes_.find(t_config)`: the entry whose key is neither less nor greater -/
def find {F : FactoryKind} (l : List (F.Request × Made)) (c : F.Request) : Option Made :=
  (l.find? (fun e => !e.1.lt c && !c.lt e.1)).map (·.2)

/-- a case of `make`: a fresh object over the storage of the factory, with the rate if the class has one, loaded from the cache -/
def create {α : Type} (K : Codec α) (b : BvKind) (C : Cache) (S : Storage) (c : F.Request) : Option (Handle × Storage) :=
  match F.cls c.type with
  | some t => do
    let (I, S) ← (Object.fresh t b (if t.sampled then some c.samplingSize else none)).loadCache K S C
    return (.index I, S)
  | none => do
    let S ← CSARaw.loadCache K S C
    return (.raw, S)

/-- `make` (benchmark/sr-index/factory.h:49-94, benchmark/sr-csa/factory.h:59-164). `sdsl::size_in_bytes` is the number of bytes that
    serialize writes (C57). `indexes_[t_config] = index` comes after a find that found nothing. -/
def make {α : Type} (K : Codec α) (b : BvKind) (C : Cache) (st : F.State) (c : F.Request) : Option (Made × F.State) :=
  match find st.indexes c with
  | some m => some (m, st)
  | none => do
    let (h, S) ← F.create K b C st.storage c
    let m : Made := { idx := h, size := (h.serialize K S).length }
    return (m, { st with storage := S, indexes := (c, m) :: st.indexes })

/-- a sequence of calls of `make` -/
def makeAll {α : Type} (K : Codec α) (b : BvKind) (C : Cache) : List F.Request → F.State → Option (List Made × F.State)
  | [], st => some ([], st)
  | c :: l, st => do
    let (m, st) ← F.make K b C st c
    let (ms, st) ← makeAll K b C l st
    return (m :: ms, st)

end FactoryKind

end Sri

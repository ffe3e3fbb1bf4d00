import Verif.Model.AllIndexes
/-! # index_base.h: generic storage, item loading and serialization -/
namespace Sri
set_option autoImplicit false

/-- keys of storages and caches (std::string) -/
abbrev Key := List Char

/-- the C++ types of the items an index keeps in its storage: Alphabet, RLEString, PsiCoreRLE, sdsl::int_vector, sdsl::sd_vector,
    sdsl::bit_vector and the rank and select supports of the last two -/
inductive ItemType where
  | alphabet | bwtRle | psi | ints | sdVector | bitVector | sdRank | sdSelect | bitRank0 | bitRank1 | bitSelect1
deriving DecidableEq, Repr

/-- values of items (the contents of a std::any). A support keeps a pointer to the bit vector it works on (`over`, `none` when it was just
    loaded, see set_vector); the supports of sd_vector have no data of their own, those of bit_vector were computed from the vector `data`.
    Elements of a std::map never move and items are never changed, so the pointer is modelled by the vector it points to. -/
inductive Item where
  | alphabet (a : Alphabet)
  | bwtRle (b : RLEString)
  | psi (p : PsiCoreRLE)
  | ints (l : List Nat)
  | sdVector (bv : List Bool)
  | bitVector (bv : List Bool)
  | sdRank (over : Option (List Bool))
  | sdSelect (over : Option (List Bool))
  | bitRank0 (data : List Bool) (over : Option (List Bool))
  | bitRank1 (data : List Bool) (over : Option (List Bool))
  | bitSelect1 (data : List Bool) (over : Option (List Bool))
deriving DecidableEq, Repr

namespace Item

def type : Item → ItemType
  | alphabet _ => .alphabet
  | bwtRle _ => .bwtRle
  | psi _ => .psi
  | ints _ => .ints
  | sdVector _ => .sdVector
  | bitVector _ => .bitVector
  | sdRank _ => .sdRank
  | sdSelect _ => .sdSelect
  | bitRank0 _ _ => .bitRank0
  | bitRank1 _ _ => .bitRank1
  | bitSelect1 _ _ => .bitSelect1

/-- what reading a serialized item gives: a support comes back without its vector -/
def unbound : Item → Item
  | sdRank _ => sdRank none
  | sdSelect _ => sdSelect none
  | bitRank0 d _ => bitRank0 d none
  | bitRank1 d _ => bitRank1 d none
  | bitSelect1 d _ => bitSelect1 d none
  | x => x

/-- the bits of a bit vector -/
def bits : Item → Option (List Bool)
  | sdVector bv => some bv
  | bitVector bv => some bv
  | _ => none

/-- `set_vector` of a support (index_base.h:141, 158) -/
def setVector (bv : List Bool) : Item → Item
  | sdRank _ => sdRank (some bv)
  | sdSelect _ => sdSelect (some bv)
  | bitRank0 d _ => bitRank0 d (some bv)
  | bitRank1 d _ => bitRank1 d (some bv)
  | bitSelect1 d _ => bitSelect1 d (some bv)
  | x => x

/-- whether a support answers for the bit vector `bv`: it points to it and its data were computed from it. Using any other support is
    counted as a fault. -/
def supports (bv : List Bool) : Item → Bool
  | sdRank o => decide (o = some bv)
  | sdSelect o => decide (o = some bv)
  | bitRank0 d o => decide (d = bv ∧ o = some bv)
  | bitRank1 d o => decide (d = bv ∧ o = some bv)
  | bitSelect1 d o => decide (d = bv ∧ o = some bv)
  | _ => false

end Item

/-- `GenericStorage = std::map<std::string, std::any>` (index_base.h:26) -/
abbrev Storage := List (Key × Item)

namespace Storage

/-- std::map::find -/
def find (S : Storage) (k : Key) : Option Item := S.lookup k

/-- `get<TItem>` (index_base.h:28-32): `none` is the null pointer -/
def get (S : Storage) (ty : ItemType) (k : Key) : Option Item :=
  match S.find k with
  | some x => if x.type = ty then some x else none
  | none => none

/-- `set` (index_base.h:34-38): emplace inserts nothing when the key is present; the pointer returned is null when the item kept under the
    key has another type -/
def set (S : Storage) (k : Key) (x : Item) : Storage × Option Item :=
  match S.find k with
  | some y => (S, if y.type = x.type then some y else none)
  | none => ((k, x) :: S, some x)

end Storage

/-- how items and sizes are written to and read from a stream of `α`s. sdsl is not modelled: the theorems ask of a codec only that reading
    gives back what was written and leaves the rest of the stream (`Codec.Faithful`). -/
structure Codec (α : Type) where
  enc : Item → List α
  dec : ItemType → List α → Option (Item × List α)
  encSize : Nat → List α
  decSize : List α → Option (Nat × List α)

/-- a cache: the contents of the file of a key, with the hash of a type in its name or without (sdsl::cache_file_name) -/
abbrev Cache := Key → Option ItemType → Option Item

/-- TSource (index_base.h:92) -/
inductive Source (α : Type) where
  | cache (C : Cache)
  | stream (rest : List α)

/-- storage of an index and the state of the source it loads from -/
structure LoadState (α : Type) where
  storage : Storage
  source : Source α

namespace LoadState
variable {α : Type} (K : Codec α)

/-- `load` of one item (index_base.h:106-123): load_from_cache throws when there is no file; a file holding another type counts as a fault -/
def read (source : Source α) (ty : ItemType) (k : Key) (hash : Bool) : Option (Item × Source α) :=
  match source with
  | .cache C => do
    let x ← C k (if hash then some ty else none)
    assertC (decide (x.type = ty))
    return (x, .cache C)
  | .stream bytes => do
    let (x, rest) ← K.dec ty bytes
    return (x, .stream rest)

/-- loadRawItem and loadItem (index_base.h:94-104, 125-129). A null pointer from `set` is dereferenced at once by loadItem; in loadBVRank and
    loadBVSelect it is handed to set_vector and dereferenced by the first query. Both count as a fault here. -/
def loadItem (st : LoadState α) (ty : ItemType) (k : Key) (hash : Bool) : Option (Item × LoadState α) :=
  match st.storage.get ty k with
  | some x => some (x, st)
  | none => do
    let (x, source) ← read K st.source ty k hash
    let (S, p) := st.storage.set k x
    let x ← p
    return (x, { storage := S, source := source })

/-- loadBVRank and loadBVSelect (index_base.h:131-165): `suffix` is `_rank` or `_select`, `sty` the type of the support -/
def loadSupport (st : LoadState α) (suffix : Key) (ty sty : ItemType) (k : Key) (hash : Bool) : Option (Item × LoadState α) :=
  match st.storage.get sty (k ++ suffix) with
  | some x => some (x, st)
  | none => do
    let (b, st) ← loadItem K st ty k hash
    let bv ← b.bits
    let (x, source) ← read K st.source sty k hash
    let (S, p) := st.storage.set (k ++ suffix) (x.setVector bv)
    let x ← p
    return (x, { storage := S, source := source })

end LoadState

/-- ItemKey (index_base.h:71-82) -/
inductive Slot where
  | alphabet | navigate | marks | samples | markToSample | samplesIdx | runCumulativeCount | validMarks | validAreas
deriving DecidableEq, Repr

/-- an item of an index: the one of a slot, or a rank or select support of it -/
inductive Part where
  | self | rank | select
deriving DecidableEq, Repr

def Part.suffix : Part → Key
  | .self => []
  | .rank => "_rank".toList
  | .select => "_select".toList

/-- one call of loadItem, loadBVRank or loadBVSelect: slot, part, types of the item and of the support, t_add_type_hash -/
structure Access where
  slot : Slot
  part : Part
  ty : ItemType
  sty : ItemType
  hash : Bool
deriving DecidableEq, Repr

/-- one call of serializeItem, serializeRank or serializeSelect: slot, part and type of what is written -/
structure Write where
  slot : Slot
  part : Part
  ty : ItemType
deriving DecidableEq, Repr

/-- run one access with the keys of the index -/
def LoadState.run {α : Type} (K : Codec α) (keys : Slot → Key) (st : LoadState α) (a : Access) : Option (LoadState α) :=
  match a.part with
  | .self => do
    let (_, st) ← LoadState.loadItem K st a.ty (keys a.slot) a.hash
    return st
  | p => do
    let (_, st) ← LoadState.loadSupport K st p.suffix a.ty a.sty (keys a.slot) a.hash
    return st

def LoadState.runAll {α : Type} (K : Codec α) (keys : Slot → Key) : List Access → LoadState α → Option (LoadState α)
  | [], st => some st
  | a :: as, st => do
    let st ← LoadState.run K keys st a
    LoadState.runAll K keys as st

/-- serializeItem (index_base.h:166-178), and serializeRank and serializeSelect (index_base.h:180-194): an absent item writes nothing -/
def serializeItem {α : Type} (K : Codec α) (S : Storage) (keys : Slot → Key) (w : Write) : List α :=
  match S.get w.ty (keys w.slot ++ w.part.suffix) with
  | some x => K.enc x
  | none => []

end Sri

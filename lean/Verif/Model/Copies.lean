import Verif.Model.Streams
/-! # Copies: pointers into other objects

What a copied object answers, given what has become of the object it was copied from. -/
namespace Sri
set_option autoImplicit false

/-- what a pointer leads to: `own` is the vector of the object itself, `source` that of the object it was copied from, `none` once that object
    is gone -/
def Ptr.target (p : Ptr) (own : List Bool) (source : Option (List Bool)) : Option (List Bool) :=
  match p with
  | .null => none
  | .own => some own
  | .foreign => source

namespace SparseObject

/-- rank (sparse_sd_vector.hpp:105-110), following the pointer of the support -/
def rankIn (x : SparseObject) (source : Option (List Bool)) (i : Nat) : Option Nat := do
  assertC (decide (i ≤ x.u))
  let bv ← x.rank.target x.bits source
  bvRank bv i

/-- select (sparse_sd_vector.hpp:175-180), following the pointers of the supports -/
def selectIn (x : SparseObject) (source : Option (List Bool)) (i : Nat) : Option Nat := do
  let bv ← x.rank.target x.bits source
  let k ← bvRank bv x.u
  assertC (decide (i < k))
  let bv ← x.select.target x.bits source
  bvSelect bv (i + 1)

end SparseObject

namespace PsiBVObject

/-- rank (psi.h:662), following the pointer; `source` are the vectors of the object that was copied. A support with data of its own works only
    on the vector they were computed from. -/
def rankIn (b : BvKind) (x : PsiBVObject) (source : Option (List (List Bool))) (c i : Nat) : Option Nat := do
  let s ← x.ranks[c]?
  let own ← x.parts[c]?
  let bv ← s.ptr.target own (source.bind (fun l => l[c]?))
  assertC (match b with | .sd => true | .plain => decide (s.data = bv))
  bvRank bv i

end PsiBVObject

/-! ## Index objects -/

/-- the storages in memory by address; `none` once destroyed -/
abbrev Memory := List (Option Storage)

/-- IndexBaseWithExternalStorage (index_base.h:41-42, 191-196) for one of the index classes: its `storage_`, by address, and `index_`, the
    functors of the query algorithms, which hold references to items of the storage they were constructed over (r_index.h:103-115 and the
    like; loadItem gives out references, index_base.h:126-129). `external`: TStorage is std::reference_wrapper<GenericStorage>. -/
structure IndexValue where
  obj : Object
  external : Bool
  storage : Nat
  functors : Option Nat

namespace IndexValue

/-- Count and Locate (index_base.h:47-53): through the functors -/
def queries (m : Memory) (x : IndexValue) : Option Queries := do
  let a ← x.functors
  let S ← (m[a]?).join
  x.obj.queries S

/-- implicit copy constructor (index_base.h declares none): `storage_` is copied, or the reference to it; `index_` is a shared_ptr and is
    shared -/
def copy (m : Memory) (x : IndexValue) : Memory × IndexValue :=
  if x.external then (m, x) else (m ++ [(m[x.storage]?).join], { x with storage := m.length })

/-- implicit move constructor, for the classes that have one (RIndex, RCSAWithBWTRun and the SrIndex classes; the others declare a
    destructor, r_csa.h:398, sr_csa.h:34, sr_csa_psi.h:40, and are copied): the elements of a std::map stay where they are and belong to the new
    object; the object moved from keeps an empty storage and no functors -/
def move (m : Memory) (x : IndexValue) : Memory × IndexValue × IndexValue :=
  if x.external then (m, x, { x with functors := none })
  else (m ++ [some []], x, { x with storage := m.length, functors := none })

/-- the end of an object's life: its own storage goes with it -/
def destroy (m : Memory) (x : IndexValue) : Memory := if x.external then m else m.set x.storage none

end IndexValue
end Sri

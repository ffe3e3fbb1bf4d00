import Verif.Model.CacheSteps
/-! # construct(index, path, config) -/
namespace Sri
set_option autoImplicit false

/-- the class that `construct` of the validated SR-CSA classes constructs first, from a copy of the object's base (sr_csa.h:834-839, 868-871) -/
def IndexType.constructBase : IndexType → Option IndexType
  | .srCSAValidMark | .srCSAValidArea => some .srCSA
  | .srCSASlimValidMark | .srCSASlimValidArea => some .srCSASlim
  | _ => none

/-- `construct(t_index, t_data_path, t_config)` (construct.h:33-38, r_index.h:284-292, sr_index.h:442-480, r_csa.h:342-350, sr_csa.h:753-874): the
    items of the rate that the object has, then load(t_config) into the object. The validated SR-CSA classes first construct a copy of their
    base, which is loaded in its own storage (as with the default, GenericStorage), then their own items; SrCSAValidArea loads itself twice. The
    process after it, unless the items could not be built, and the object and its storage, unless load throws. -/
def Object.construct {α : Type} (K : Codec α) (bytes : List Nat) (I : Object) (S : Storage) (P : Process) : Option (Process × Option (Object × Storage)) :=
  match I.type.constructBase with
  | none => do
    let P' ← constructIn bytes I.type I.bv I.rate P
    return (P', I.loadCache K S P'.cache)
  | some t₀ => do
    let P₁ ← constructIn bytes t₀ I.bv I.rate P
    match Object.loadCache K { I with type := t₀ } S P₁.cache with
    | none => return (P₁, none)
    | some _ => do
      let P' ← (runSteps bytes I.rate Steps.srCSAValid P₁).2
      return (P', do
        let (I', S') ← I.loadCache K S P'.cache
        if I.type.withAreas then I'.loadCache K S' P'.cache else some (I', S'))

end Sri

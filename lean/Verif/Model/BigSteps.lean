import Verif.Model.CacheSteps
import Verif.Model.BigBWT
/-! # Construction with the Big-BWT tool as a program over files

construct with `sa_algo = BIG_BWT` (construct.h:40-55, construct_big_bwt.h). The tool leaves its files beside the data file, and the items
are kept in the directory of the cache; these are two places (config.h:104-116). -/
namespace Sri
set_option autoImplicit false

/-- SAAlgo (config.h:15-20) -/
inductive SAAlgo where
  | sdslLibdivsufsort | sdslSeSais | bigBWT
deriving DecidableEq, Repr

/-- toSAAlgo (config.h:119-127): other names throw std::out_of_range -/
def toSAAlgo (name : String) : Option SAAlgo :=
  [("SDSL_LIBDIVSUFSORT", SAAlgo.sdslLibdivsufsort), ("SDSL_SE_SAIS", .sdslSeSais), ("BIG_BWT", .bigBWT)].lookup name

/-- the files `.bwt`, `.ssa` and `.esa` the tool leaves beside the data file (construct_big_bwt.h:32-37); they come together -/
structure BigFiles where
  bwt : List Nat
  ssa : List Nat
  esa : List Nat
deriving DecidableEq, Repr

namespace Steps

/-- constructBWT (construct_big_bwt.h:39-52). Its guard is the file `.bwt` of the tool, not the item it stores (lines 101-104); it is
    dealt with in `bigBase`. If the tool could not be run no symbol is read, and an empty BWT is stored. -/
def bwtBig (tool : Option BigFiles) : CacheStep where
  guards := []
  inputs := []
  outputs := [[(.bwt, none)]]
  compute := fun _ _ _ => some [.ints (match tool with
    | none => []
    | some f => bigConstructBWT f.bwt)]

/-- constructBWTRuns (construct_big_bwt.h:54-90, 107-110): the files are read in pairs, one after the other; std::filesystem::file_size
    throws if there is no file `.bwt` -/
def bwtRunsBig (data : Option BigFiles) : CacheStep where
  guards := [(.first, none)]
  inputs := []
  outputs := [[(.first, none), (.firstTextPos, none)], [(.last, none), (.lastTextPos, none)]]
  compute := fun _ _ _ => data.map (fun f =>
    let r := bigConstructBWTRuns f.bwt f.ssa f.esa
    [.ints r.first, .ints r.firstTextPos, .ints r.last, .ints r.lastTextPos])

/-- constructIndexBaseItems (construct_big_bwt.h:92-123); `data` are the files that lie beside the data file at the start, `tool` what a run
    of the tool leaves there -/
def bigBase (data tool : Option BigFiles) : List CacheStep :=
  (if data.isSome then [] else [bwtBig tool]) ++ [bwtRunsBig (data.or tool), alphabet, bwtRle]

end Steps

/-- the steps of `construct` for an index type after those of the base items -/
def laterSteps (t : IndexType) (b : BvKind) : List CacheStep := (program t b).drop Steps.base.length

/-- a data file with the files of the tool beside it, and a process at work on a cache for it -/
structure DataProcess where
  data : Option BigFiles
  P : Process

/-- `construct` of an index (construct.h:31-36, 38-55): the stores, what lies beside the data file afterwards, and the process unless it
    faults or throws. Both algorithms of sdsl compute the suffix array (contract). -/
def constructAlgo (algo : SAAlgo) (tool : Option BigFiles) (bytes : List Nat) (t : IndexType) (b : BvKind) (s : Nat) (W : DataProcess) :
    List CacheEvent × Option BigFiles × Option Process :=
  match algo with
  | .bigBWT =>
    let r := runSteps bytes s (Steps.bigBase W.data tool ++ laterSteps t b) W.P
    (r.1, W.data.or tool, r.2)
  | _ =>
    let r := runSteps bytes s (program t b) W.P
    (r.1, W.data, r.2)

end Sri

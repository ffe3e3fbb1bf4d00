import Verif.Model.Legacy
import Verif.Model.Sampling
import Verif.Model.Widths
import Verif.Model.Bench
import Verif.Model.Text
/-! # benchmark/bm_build_ri_items.cpp and the part of benchmark/factory.h that loads its items

The program computes the items of the indexes over inclusive ranges, each in a registered benchmark, and leaves them in files; bm_locate.cpp
loads them through `Factory` and queries. The suffix array is that of the text, by the contract of sdsl::construct_sa. Files are whole: a
benchmark either stores a file or does not (crashes inside a store are C34's subject). -/
namespace Sri
set_option autoImplicit false

/-- the cache keys (benchmark/definitions.h:12-34, with the suffixes and prefixes of bm_build_ri_items.cpp) -/
inductive LegacyKey where
  | text | sa | bwt | bwtRle
  | heads | headsPos | headsPosVec | headsPosBv | headsPosBvSd
  | tails | tailsPos | tailsPosVec
  | f
  | tailsSortedVec | headsSortedVec | tailsByHead
  | tailsSampled (s : Nat) | tailsIdxVec (s : Nat) | tailsIdxBv (s : Nat) | tailsIdxBvSd (s : Nat)
  | tailsByHeadS (s : Nat) | markedVec (s : Nat) | markedBv (s : Nat) | markedBvSd (s : Nat)
  | headsSampledBv (s : Nat) | headsSampledBvSd (s : Nat) | areas (s : Nat)
deriving DecidableEq, Repr

/-- the string of a key (benchmark/definitions.h:12-34; sdsl::conf::KEY_TEXT, KEY_SA, KEY_BWT) -/
def LegacyKey.name : LegacyKey → List Char
  | .text => "text".toList
  | .sa => "sa".toList
  | .bwt => "bwt".toList
  | .bwtRle => "bwt_rle".toList
  | .heads => "bwt_heads".toList
  | .headsPos => "bwt_heads_tpos".toList
  | .headsPosVec => "bwt_heads_tpos".toList ++ "_vec".toList
  | .headsPosBv => "bwt_heads_tpos".toList ++ "_bv".toList
  | .headsPosBvSd => "bwt_heads_tpos".toList ++ "_bv_sd".toList
  | .tails => "bwt_tails".toList
  | .tailsPos => "bwt_tails_tpos".toList
  | .tailsPosVec => "bwt_tails_tpos".toList ++ "_vec".toList
  | .f => "f".toList
  | .tailsSortedVec => "bwt_tails_tpos_sorted_idx".toList ++ "_vec".toList
  | .headsSortedVec => "bwt_heads_tpos_sorted_idx".toList ++ "_vec".toList
  | .tailsByHead => "bwt_tails_sampled_idx_by_heads_tpos".toList
  | .tailsSampled s => (toString s).toList ++ "_".toList ++ "bwt_tails_sampled_tpos".toList
  | .tailsIdxVec s => (toString s).toList ++ "_".toList ++ ("bwt_tails_sampled_idx".toList ++ "_vec".toList)
  | .tailsIdxBv s => (toString s).toList ++ "_".toList ++ ("bwt_tails_sampled_idx".toList ++ "_bv".toList)
  | .tailsIdxBvSd s => (toString s).toList ++ "_".toList ++ ("bwt_tails_sampled_idx".toList ++ "_bv_sd".toList)
  | .tailsByHeadS s => (toString s).toList ++ "_".toList ++ "bwt_tails_sampled_idx_by_heads_tpos".toList
  | .markedVec s => (toString s).toList ++ "_".toList ++ ("bwt_tails_marked_sampled_idx_by_heads_tpos".toList ++ "_vec".toList)
  | .markedBv s => (toString s).toList ++ "_".toList ++ ("bwt_tails_marked_sampled_idx_by_heads_tpos".toList ++ "_bv".toList)
  | .markedBvSd s => (toString s).toList ++ "_".toList ++ ("bwt_tails_marked_sampled_idx_by_heads_tpos".toList ++ "_bv_sd".toList)
  | .headsSampledBv s => (toString s).toList ++ "_".toList ++ ("bwt_heads_sampled_tpos".toList ++ "_bv".toList)
  | .headsSampledBvSd s => (toString s).toList ++ "_".toList ++ ("bwt_heads_sampled_tpos".toList ++ "_bv_sd".toList)
  | .areas s => (toString s).toList ++ "_".toList ++ "bwt_heads_marked_sampled_trusted_area".toList

/-- the content of a file: a vector of integers, of bits, or an rle_string. Each key is always used with one of them. -/
inductive LegacyVal where
  | ints (l : List Nat)
  | bits (l : List Bool)
  | rle (S : RleString)
deriving DecidableEq, Repr

/-- the files of one data set in the working directory -/
abbrev LegacyDisk := LegacyKey → Option LegacyVal

namespace LegacyDisk

def empty : LegacyDisk := fun _ => none

/-- sdsl::store_to_cache -/
def store (D : LegacyDisk) (k : LegacyKey) (v : LegacyVal) : LegacyDisk := fun k' => if k' = k then some v else D k'

/-- sdsl::load_from_cache into a new vector of integers: without the file the vector stays empty; the result is not looked at anywhere -/
def ints (D : LegacyDisk) (k : LegacyKey) : List Nat :=
  match D k with
  | some (.ints l) => l
  | _ => []

/-- sdsl::load_from_cache into a new bit vector -/
def bits (D : LegacyDisk) (k : LegacyKey) : List Bool :=
  match D k with
  | some (.bits l) => l
  | _ => []

/-- sdsl::load_from_cache into a new rle_string; an empty one cannot be queried -/
def rle (D : LegacyDisk) (k : LegacyKey) : Option RleString :=
  match D k with
  | some (.rle S) => some S
  | _ => none

end LegacyDisk

namespace LegacyBuild

/-- the text (bm_build_ri_items.cpp:44-61): the bytes of the file with 0 replaced by 2, and the symbol 0 appended -/
def textOf (bytes : List Nat) : List Nat := bytes.map (fun c => if c = 0 then 2 else c) ++ [0]

/-- BM_BuildText (bm_build_ri_items.cpp:38-69) -/
def buildText (bytes : List Nat) (D : LegacyDisk) : Option LegacyDisk := some (D.store .text (.ints (textOf bytes)))

/-- BM_BuildSA (bm_build_ri_items.cpp:72-79): sdsl::construct_sa needs the text -/
def buildSA (D : LegacyDisk) : Option LegacyDisk := do
  assertC (D .text).isSome
  return D.store .sa (.ints (suffixArray (D.ints .text)))

/-- `++f[symbol + 1]` for each symbol (bm_build_ri_items.cpp:117-120); f has 256 entries -/
def countSymbols : List Nat → List Nat → Option (List Nat)
  | [], f => some f
  | c :: l, f => do
    let x ← f[c + 1]?
    countSymbols l (f.set (c + 1) (x + 1))

/-- `for (i = 1; i < 256; ++i) f[i] += f[i - 1]` (bm_build_ri_items.cpp:175-177): `m` entries to go from `i` on -/
def prefixSums : Nat → Nat → List Nat → Option (List Nat)
  | 0, _, f => some f
  | m + 1, i, f => do
    let a ← f[i - 1]?
    let b ← f[i]?
    prefixSums m (i + 1) (f.set i (b + a))

/-- the variables that a round of BM_BuildBWT leaves (bm_build_ri_items.cpp:93-103) -/
structure BWTItems where
  bwt : List Nat
  heads : List Nat
  headsPos : List Nat
  headsPosVec : List Nat
  headsBv : List Bool
  tails : List Nat
  tailsPos : List Nat
  tailsPosVec : List Nat
  f : List Nat
  r : Nat
deriving DecidableEq, Repr

/-- a round of BM_BuildBWT (bm_build_ri_items.cpp:105-180), with computeBWT; the vectors of integers have hi(n) + 1 bits -/
def bwtRound (text sa : List Nat) : Option BWTItems := do
  let n := text.length
  let e ← computeBWT n sa text
  let f ← countSymbols (e.bwt.map (·.2)) (List.replicate 256 0)
  assertC (decide (n = e.bwt.length))
  assertC (decide (e.runs = e.first.length))
  assertC (decide (e.runs = e.last.length))
  let w := hiBit n + 1
  let bv ← bitVectorFromInts (e.first.map (·.textPos)) n false
  let f ← prefixSums 255 1 f
  assertC (decide (f[255]? = some n))
  return { bwt := e.bwt.map (·.2), heads := (IntVec.store w (e.first.map (·.pos))).vals, headsPos := (IntVec.store w (e.first.map (·.textPos))).vals,
           headsPosVec := e.first.map (·.textPos), headsBv := bv, tails := (IntVec.store w (e.last.map (·.pos))).vals,
           tailsPos := (IntVec.store w (e.last.map (·.textPos))).vals, tailsPosVec := e.last.map (·.textPos), f := f, r := e.runs }

/-- BM_BuildBWT (bm_build_ri_items.cpp:82-195) with `k + 1` rounds; every round starts anew -/
def buildBWT (k : Nat) (D : LegacyDisk) : Option LegacyDisk := do
  assertC (D .sa).isSome
  let x ← Bench.rounds (fun _ => (bwtRound (D.ints .text) (D.ints .sa)).map some) (k + 1) none
  let x ← x
  let D := D.store .bwt (.ints x.bwt)
  let D := D.store .heads (.ints x.heads)
  let D := D.store .headsPos (.ints x.headsPos)
  let D := D.store .headsPosVec (.ints x.headsPosVec)
  let D := D.store .headsPosBv (.bits x.headsBv)
  let D := D.store .headsPosBvSd (.bits x.headsBv)
  let D := D.store .tails (.ints x.tails)
  let D := D.store .tailsPos (.ints x.tailsPos)
  let D := D.store .tailsPosVec (.ints x.tailsPosVec)
  return D.store .f (.ints x.f)

/-- BM_BuildBWTRunLengthEncoded (bm_build_ri_items.cpp:198-214); rle_string has block size 2 (rle_string.hpp:59) -/
def buildRLE (D : LegacyDisk) : Option LegacyDisk := do
  assertC (D .bwt).isSome
  let S ← RleString.build ((D.ints .bwt).map LegacyIndex.writeTerminator) 2
  return D.store .bwtRle (.rle S)

/-- BM_SortBWTTailsTextPos (bm_build_ri_items.cpp:217-238) -/
def sortTails (D : LegacyDisk) : Option LegacyDisk := some (D.store .tailsSortedVec (.ints (sortIndices (D.ints .tailsPosVec))))

/-- BM_SortBWTHeadsTextPos (bm_build_ri_items.cpp:241-276) -/
def sortHeads (D : LegacyDisk) : Option LegacyDisk := do
  let heads := D.ints .headsPosVec
  let idx := sortIndices heads
  let links ← idx.mapM (fun i => cmod (i + heads.length - 1) heads.length)
  let D := D.store .headsSortedVec (.ints idx)
  return D.store .tailsByHead (.ints (IntVec.store (hiBit heads.length + 1) links).vals)

/-- the loop of BM_BuildBWTTailsSampling (bm_build_ri_items.cpp:317-336) with the push after it: the list holds the indices from
    `current_idx` on; `a` and `b` are prev_tail_to_first_head_in_text and prev_tail_to_last_head_in_text. Also the final `prev`. -/
def tailsLoop (s a b : Nat) (values : List Nat) : Nat → Nat → Nat → List Nat → Option (List Nat × Nat)
  | _, prevIdx, prev, [] => some ([prevIdx], prev)
  | last, prevIdx, prev, currIdx :: rest => do
    let curr ← values[currIdx]?
    let d ← csub curr last
    if prevIdx = a ∨ prevIdx = b ∨ s < d then do
      let (l, p) ← tailsLoop s a b values prev currIdx curr rest
      return (prevIdx :: l, p)
    else tailsLoop s a b values last currIdx curr rest

/-- BM_BuildBWTTailsSampling (bm_build_ri_items.cpp:279-371): the kept indices in BWT order (lines 309-340) and the last text position -/
def tailsRound (s : Nat) (values sorted headsSorted : List Nat) : Option (List Nat × Nat) := do
  let r := sorted.length
  assertC (decide (headsSorted.length = r))
  let h0 ← headsSorted.head?
  let h1 ← headsSorted.getLast?
  let a ← cmod (h0 + r - 1) r
  let b ← cmod (h1 + r - 1) r
  let i0 ← sorted[0]?
  let last ← values[i0]?
  let i1 ← sorted[1]?
  let prev ← values[i1]?
  let (l, p) ← tailsLoop s a b values last i1 prev (sorted.drop 2)
  return (sortBy (fun i => i) (i0 :: l), p)

def tailsSampling (s : Nat) (D : LegacyDisk) : Option LegacyDisk := do
  let values := D.ints .tailsPosVec
  let sorted := D.ints .tailsSortedVec
  let (idx, p) ← tailsRound s values sorted (D.ints .headsSortedVec)
  let samples ← idx.mapM (fun i => values[i]?)
  let bv ← bitVectorFromInts idx sorted.length false
  let D := D.store (.tailsSampled s) (.ints (IntVec.store (hiBit p + 1) samples).vals)
  let D := D.store (.tailsIdxVec s) (.ints idx)
  let D := D.store (.tailsIdxBv s) (.bits bv)
  return D.store (.tailsIdxBvSd s) (.bits bv)

/-- `while (next_sampled_head_idx != head_idxs_sorted_in_text[++j]);` (bm_build_ri_items.cpp:445): the list holds the indices after `j`; what is
    left after the one that is found. Reading past the end is a fault. -/
def skipHeads (target : Nat) : List Nat → Option (List Nat)
  | [] => none
  | h :: rest => if target ≠ h then skipHeads target rest else some rest

/-- the loop of BM_BuildBWTHeadsSampling (bm_build_ri_items.cpp:428-449): `nexts` are the values next_sampled_head_idx for `i, i + 1, …`, the list
    `sorted` holds the head indices after `j`. For each `i` the text position of its head and, if it is not trusted, its area. -/
def headsLoop (heads : List Nat) : Nat → List Nat → List Nat → Option (List (Nat × Option Nat))
  | _, [], _ => some []
  | _, _ :: _, [] => none
  | head, next :: nexts, h :: sorted => do
    let p ← heads[head]?
    if next ≠ h then do
      let q ← heads[h]?
      let d ← csub q p
      let sorted ← skipHeads next sorted
      let l ← headsLoop heads next nexts sorted
      return (p, some (d + 1)) :: l
    else do
      let l ← headsLoop heads next nexts sorted
      return (p, none) :: l

/-- what a round of BM_BuildBWTHeadsSampling leaves (bm_build_ri_items.cpp:389-402) -/
structure HeadsItems where
  order : List Nat
  marked : List Bool
  bv : List Bool
  areas : List Nat
deriving DecidableEq, Repr

/-- a round of BM_BuildBWTHeadsSampling (bm_build_ri_items.cpp:404-466) -/
def headsRound (heads sampled sorted : List Nat) : Option HeadsItems := do
  let r := heads.length
  assertC (decide (sorted.length = r))
  -- the head after each sampled tail
  let after ← sampled.mapM (fun k => cmod (k + 1) r)
  let keys ← after.mapM (fun j => heads[j]?)
  let order := sortIndices keys
  let nexts ← order.mapM (fun o => after[o]?)
  let first ← sorted.head?
  let last ← sorted.getLast?
  assertC (decide (nexts.head? = some first))
  assertC (decide (nexts.getLast? = some last))
  let lastPos ← heads[last]?
  let l ← headsLoop heads first (nexts.drop 1) (sorted.drop 1)
  let bv ← bitVectorFromInts (l.map (·.1) ++ [lastPos]) (lastPos + 1) false
  return { order := (IntVec.store (hiBit sampled.length + 1) order).vals, marked := l.map (·.2.isNone) ++ [true], bv := bv,
           areas := (IntVec.store 64 (l.filterMap (·.2))).bitCompress.vals }

/-- BM_BuildBWTHeadsSampling (bm_build_ri_items.cpp:374-497) -/
def headsSampling (s : Nat) (D : LegacyDisk) : Option LegacyDisk := do
  let x ← headsRound (D.ints .headsPosVec) (D.ints (.tailsIdxVec s)) (D.ints .headsSortedVec)
  let D := D.store (.tailsByHeadS s) (.ints x.order)
  let D := D.store (.markedVec s) (.bits x.marked)
  let D := D.store (.markedBv s) (.bits x.marked)
  let D := D.store (.markedBvSd s) (.bits x.marked)
  let D := D.store (.headsSampledBv s) (.bits x.bv)
  let D := D.store (.headsSampledBvSd s) (.bits x.bv)
  return D.store (.areas s) (.ints x.areas)

/-- the registered benchmarks (bm_build_ri_items.cpp:518-550) -/
inductive Step where
  | text | sa | bwt | rle | sortTails | sortHeads | tails (s : Nat) | heads (s : Nat)
deriving DecidableEq, Repr

/-- one benchmark. The number of rounds matters for none of them: every round computes from the loaded items (`k` is used for BM_BuildBWT,
    whose round also clears the counters). -/
def Step.run (bytes : List Nat) (k : Nat) : Step → LegacyDisk → Option LegacyDisk
  | .text, D => buildText bytes D
  | .sa, D => buildSA D
  | .bwt, D => buildBWT k D
  | .rle, D => buildRLE D
  | .sortTails, D => LegacyBuild.sortTails D
  | .sortHeads, D => LegacyBuild.sortHeads D
  | .tails s, D => tailsSampling s D
  | .heads s, D => headsSampling s D

/-- `->RangeMultiplier(2)->Range(4, 2u << 8u)` (bm_build_ri_items.cpp:544-545, 550-551) -/
def rates : List Nat := [4, 8, 16, 32, 64, 128, 256, 512]

/-- the benchmarks that main registers: those whose file is not there when it starts, or all of them (bm_build_ri_items.cpp:516-552) -/
def registered (rebuild : Bool) (D : LegacyDisk) : List Step :=
  let needed (k : LegacyKey) : Bool := (D k).isNone || rebuild
  (if needed .text then [Step.text] else []) ++ (if needed .sa then [.sa] else []) ++ (if needed .bwt then [.bwt] else []) ++
  (if needed .bwtRle then [.rle] else []) ++ (if needed .tailsSortedVec then [.sortTails] else []) ++
  (if needed .headsSortedVec then [.sortHeads] else []) ++ (if needed (.tailsSampled 16) then rates.map .tails else []) ++
  (if needed (.headsSampledBv 16) then rates.map .heads else [])

/-- a sequence of benchmarks -/
def runSteps (bytes : List Nat) (k : Nat) : List Step → LegacyDisk → Option LegacyDisk
  | [], D => some D
  | t :: l, D => do runSteps bytes k l (← t.run bytes k D)

/-- main (bm_build_ri_items.cpp:499-558) -/
def main (bytes : List Nat) (rebuild : Bool) (k : Nat) (D : LegacyDisk) : Option LegacyDisk := runSteps bytes k (registered rebuild D) D

/-- the items that Factory::Factory loads for the rate `s` (factory.h:34-93), put together as in internal_make (factory.h:237-320). An alphabet and an
    RLEString are not part of these indexes. -/
def load (D : LegacyDisk) (s : Nat) : Option LegacyIndex := do
  let rle ← D.rle .bwtRle
  let last ← csub rle.size 1
  let c ← rle.access last
  return { rle := rle, f := D.ints .f, lastSym := c,
           items := { sr := { base := { alphabet := ⟨[], []⟩, bwtRle := ⟨0, 0, [], [], []⟩, samples := D.ints (.tailsSampled s), marks := D.bits (.headsSampledBvSd s), markToSample := D.ints (.tailsByHeadS s), n := rle.size }, samplesIdx := D.bits (.tailsIdxBvSd s), s := s }, validMarks := D.bits (.markedBv s), validAreas := D.ints (.areas s) } }

/-- the items of the index with one sample per run (factory.h:42-58, 241-254) -/
def loadR (D : LegacyDisk) : Option LegacyRIndex := do
  let rle ← D.rle .bwtRle
  let samples := D.ints .tailsPos
  let last ← csub samples.length 1
  let v ← samples[last]?
  return { rle := rle, f := D.ints .f, items := { alphabet := ⟨[], []⟩, bwtRle := ⟨0, 0, [], [], []⟩, samples := samples, marks := D.bits .headsPosBvSd, markToSample := D.ints .tailsByHead, n := rle.size }, finalValue := v + 1 }

end LegacyBuild
end Sri

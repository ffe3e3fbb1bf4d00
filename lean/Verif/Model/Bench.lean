import Mathlib.Data.List.Sort
import Verif.Model.Base64
import Verif.Model.Factory
import Verif.Model.EncVector
/-! # The query benchmarks: benchmark/bm_locate.h, bm_locate_set.h and the bm_count_*.cpp, bm_locate_*.cpp of sr-index/ and sr-csa/

Files are lists of bytes. Time is not modelled: of the library of benchmarks only the loop `for (auto _ : t_state)` is, as a number of
rounds. The counters of a benchmark are doubles; here they are the numbers that are assigned to them, and the ratio Bits_x_Symbol is left out. -/
namespace Sri
set_option autoImplicit false
namespace Bench

/-! ## Patterns -/

/-- struct Pattern (bm_locate.h:189-195) -/
structure Pattern where
  encoded : List Nat
  decoded : List Nat
deriving DecidableEq, Repr

/-- enum PatternCode (bm_locate.h:197-200) -/
inductive PatternCode where
  | plain | base64
deriving DecidableEq, Repr

/-- toPatternCode (bm_locate.h:202-209); `none`: std::map::at throws -/
def toPatternCode (name : List Char) : Option PatternCode :=
  if name = "PLAIN".toList then some .plain
  else if name = "BASE64".toList then some .base64
  else none

/-- `std::getline` on what is left of a stream: the characters up to a newline, which is consumed, or up to the end. It fails when there is
    nothing left. -/
def getline (rest : List Nat) : Option (List Nat × List Nat) :=
  if rest = [] then none
  else some (rest.takeWhile (fun c => c != '\n'.toNat), (rest.dropWhile (fun c => c != '\n'.toNat)).drop 1)

/-- the lambda decode of ReadPatterns (bm_locate.h:220-227); `none`: throws -/
def decodeLine : PatternCode → List Nat → Option (List Nat)
  | .base64, l => Base64.decode l false
  | .plain, l => some l

/-- the loop of ReadPatterns (bm_locate.h:231-236) -/
def readLoop (code : PatternCode) : Nat → List Nat → List Pattern → Option (List Pattern)
  | 0, _, _ => none
  | fuel + 1, rest, patterns =>
    match getline rest with
    | none => some patterns
    | some (buffer, rest) =>
      if buffer.isEmpty then readLoop code fuel rest patterns
      else do
        let d ← decodeLine code buffer
        readLoop code fuel rest (patterns ++ [⟨buffer, d⟩])

/-- how ReadPatterns ends -/
inductive ReadOutcome where
  | exit (code : Nat)
  | exception
  | patterns (l : List Pattern)
deriving DecidableEq, Repr

/-- ReadPatterns (bm_locate.h:211-240): `file` is the content of the file, or `none` if it cannot be opened; `code` is the flag pattern_code.
    Every round of the loop consumes a character. -/
def readPatterns (file : Option (List Nat)) (code : List Char) : ReadOutcome :=
  match file with
  | none => .exit 3
  | some bytes =>
    match (do readLoop (← toPatternCode code) (bytes.length + 1) bytes []) with
    | none => .exception
    | some l => .patterns l

/-! ## Loops and counters -/

/-- `for (auto _ : t_state)`: some rounds of the body -/
def rounds {σ : Type} (body : σ → Option σ) : Nat → σ → Option σ
  | 0, s => some s
  | k + 1, s => do rounds body k (← body s)

/-- the counters that UpdateCounter sets (bm_locate.h:43-54) -/
structure Counters where
  collectionSize : Nat
  size : Nat
  patterns : Nat
  occurrences : Nat
deriving DecidableEq, Repr

/-- `operator<<` of an unsigned integer -/
def decimal (n : Nat) : List Nat := (toString n).toList.map Char.toNat

/-- a string literal -/
def lit (s : String) : List Nat := s.toList.map Char.toNat

/-- `std::sort` of a vector of integers: the result is determined by the contract, whatever the algorithm -/
def sortOccs (l : List Nat) : List Nat := l.insertionSort (· ≤ ·)

/-! ## Locate -/

/-- the loop over the patterns of BM_MacroLocate (bm_locate.h:63-66) -/
def macroBody (locate : List Nat → Option (List Nat)) : List Pattern → Nat → Option Nat
  | [], total => some total
  | p :: ps, total => do
    let occs ← locate p.decoded
    macroBody locate ps ((total + occs.length) % W64)

/-- BM_MacroLocate (bm_locate.h:56-70) after the index is made: the final value of total_occs -/
def macroLocate (locate : List Nat → Option (List Nat)) (patterns : List Pattern) (iters : Nat) : Option Nat :=
  rounds (fun _ => macroBody locate patterns 0) iters 0

/-- BM_MicroLocate (bm_locate.h:72-88) after the index is made: total_occs and the new value of the shared `int` t_i. The sum `++*t_i` is
    one of type int: it has to stay below 2^31. -/
def microLocate (locate : List Nat → Option (List Nat)) (patterns : List Pattern) (i : Nat) (iters : Nat) : Option (Nat × Nat) := do
  let pattern ← patterns[i]?
  let total ← rounds (fun _ => do return (← locate pattern.decoded).length) iters 0
  let _ ← assertC (decide (i + 1 < 2 ^ 31))
  return (total, if i + 1 = patterns.length then 0 else i + 1)

/-- a sequence of calls of BM_MicroLocate with one t_i: the totals -/
def microCalls (locate : List Nat → Option (List Nat)) (patterns : List Pattern) (iters : Nat) : Nat → Nat → Option (List Nat)
  | 0, _ => some []
  | k + 1, i => do
    let (total, i) ← microLocate locate patterns i iters
    let l ← microCalls locate patterns iters k i
    return total :: l

/-- the lines of the occurrences of one pattern (bm_locate.h:113-115); std::endl is a newline -/
def occLines : List Nat → List Nat → List Nat
  | [], out => out
  | item :: l, out => occLines l (out ++ lit "  " ++ decimal item ++ lit "\n")

/-- the loop over the patterns of BM_PrintLocate (bm_locate.h:107-116) -/
def printBody (locate : List Nat → Option (List Nat)) : List Pattern → List Nat × Nat → Option (List Nat × Nat)
  | [], s => some s
  | p :: ps, (out, total) => do
    let out := out ++ p.encoded ++ lit "\n"
    let occs ← locate p.decoded
    let total := (total + occs.length) % W64
    let occs := sortOccs occs
    printBody locate ps (occLines occs out, total)

/-- the rounds of BM_PrintLocate (bm_locate.h:104-117): the file that is left, and total_occs. Each round opens the file anew. -/
def printLocate (locate : List Nat → Option (List Nat)) (patterns : List Pattern) (iters : Nat) : Option (List Nat × Nat) :=
  rounds (fun _ => printBody locate patterns ([], 0)) iters ([], 0)

/-- the name of the file of BM_PrintLocate (bm_locate.h:93-99): `bmName` is `t_state.name()`, "Print/" and the name of the index -/
def printFile (bmName : List Char) (sampled : Bool) (rate : Nat) : List Char :=
  let idxName := (bmName.dropWhile (fun c => c != '/')).drop 1
  let idxName := idxName.map (fun c => if c = '/' then '_' else c)
  let idxName := if sampled then idxName ++ "-".toList ++ (toString rate).toList else idxName
  "result-".toList ++ idxName ++ ".txt".toList

/-! ## Count -/

/-- the loop over the patterns of BM_QueryCount (bm_count_ri.cpp:26-29, bm_count_csa.cpp:26-29) -/
def countBody (count : List Nat → Option (Nat × Nat)) : List Pattern → Nat → Option Nat
  | [], total => some total
  | p :: ps, total => do
    let range ← count p.decoded
    let w ← csub range.2 range.1
    countBody count ps ((total + w) % W64)

/-- the rounds of BM_QueryCount (bm_count_ri.cpp:21-33, bm_count_csa.cpp:21-33): the final value of total_occs -/
def queryCount (count : List Nat → Option (Nat × Nat)) (patterns : List Pattern) (iters : Nat) : Option Nat :=
  rounds (fun _ => countBody count patterns 0) iters 0

/-- the loop over the patterns of BM_PrintQueryCount (bm_count_ri.cpp:47-52, bm_count_csa.cpp:47-52) -/
def printCountBody (count : List Nat → Option (Nat × Nat)) : List Pattern → List Nat × Nat → Option (List Nat × Nat)
  | [], s => some s
  | p :: ps, (out, total) => do
    let range ← count p.decoded
    let w ← csub range.2 range.1
    let total := (total + w) % W64
    printCountBody count ps
      (out ++ lit "\"" ++ p.encoded ++ lit "\"," ++ decimal w ++ lit "," ++ decimal range.1 ++ lit "," ++ decimal range.2 ++ lit "\n", total)

/-- the rounds of BM_PrintQueryCount (bm_count_ri.cpp:35-56, bm_count_csa.cpp:35-56): the file that is left, and total_occs -/
def printCount (count : List Nat → Option (Nat × Nat)) (patterns : List Pattern) (iters : Nat) : Option (List Nat × Nat) :=
  rounds (fun _ => printCountBody count patterns (lit "pattern,count,range_start,range_end" ++ lit "\n", 0)) iters ([], 0)

/-! ## Runs of benchmarks over a factory -/

/-- IndexConfig (bm_locate_set.h:12-17) with the type of index that its factory_config names; the sampling_size of that is 0 -/
structure IndexConfig (F : FactoryKind) where
  name : List Char
  type : F.Enum
  hasSampling : Bool

/-- idx_configs of bm_locate_ri.cpp:46-51 -/
def riConfigs : List (IndexConfig riFactory) :=
  [⟨"R-Index".toList, RiEnum.rIndex, false⟩, ⟨"SR-Index".toList, RiEnum.srIndex, true⟩, ⟨"SR-Index-VM".toList, RiEnum.srIndexVM, true⟩,
   ⟨"SR-Index-VA".toList, RiEnum.srIndexVA, true⟩]

/-- idx_configs of bm_locate_csa.cpp:46-59 -/
def csaConfigs : List (IndexConfig csaFactory) :=
  [⟨"R-CSA-BWT-RUNS".toList, CsaEnum.rCSA, false⟩, ⟨"R-CSA-PSI-RUNS".toList, CsaEnum.rCSAPsiRuns, false⟩, ⟨"SR-CSA".toList, CsaEnum.srCSA, true⟩,
   ⟨"SR-CSA-VM".toList, CsaEnum.srCSAVM, true⟩, ⟨"SR-CSA-VA".toList, CsaEnum.srCSAVA, true⟩, ⟨"SR-CSA-Slim".toList, CsaEnum.srCSASlim, true⟩,
   ⟨"SR-CSA-Slim-VM".toList, CsaEnum.srCSASlimVM, true⟩, ⟨"SR-CSA-Slim-VA".toList, CsaEnum.srCSASlimVA, true⟩,
   ⟨"SR-CSA-PSI-RUNS".toList, CsaEnum.srCSAPsiRuns, true⟩, ⟨"SR-CSA-PSI-RUNS-VM".toList, CsaEnum.srCSAPsiRunsVM, true⟩,
   ⟨"SR-CSA-PSI-RUNS-VA".toList, CsaEnum.srCSAPsiRunsVA, true⟩]

/-- the request of a run with the argument `rate` (bm_locate_set.h:27-30) -/
def IndexConfig.request {F : FactoryKind} (c : IndexConfig F) (rate : Nat) : F.Request := ⟨c.type, if c.hasSampling then rate else 0⟩

/-- the name under which the printing benchmark is registered (bm_locate.h:179-183), and its file -/
def IndexConfig.file {F : FactoryKind} (c : IndexConfig F) (rate : Nat) : List Char := printFile ("Print/".toList ++ c.name) c.hasSampling rate

/-- what a registered benchmark does -/
inductive Kind where
  | macroLocate | printLocate | queryCount | printCount
deriving DecidableEq, Repr

/-- what a benchmark leaves: the file it writes, if it writes one, and its counters -/
structure Report where
  file : Option (List Nat)
  counters : Counters
deriving DecidableEq, Repr

/-- the queries and counters of one benchmark on an index -/
def perform (q : Queries) (patterns : List Pattern) (iters n size : Nat) : Kind → Option Report
  | .macroLocate => do
    let total ← macroLocate q.locate patterns iters
    return ⟨none, ⟨n, size, patterns.length, total⟩⟩
  | .printLocate => do
    let (file, total) ← printLocate q.locate patterns iters
    return ⟨some file, ⟨n, size, patterns.length, total⟩⟩
  | .queryCount => do
    let total ← queryCount q.count patterns iters
    return ⟨none, ⟨n, size, patterns.length, total⟩⟩
  | .printCount => do
    let (file, total) ← printCount q.count patterns iters
    return ⟨some file, ⟨n, size, patterns.length, total⟩⟩

/-- one benchmark: the index is made by the factory (bm_locate_set.h:27-40; in bm_count_*.cpp:82-83 when it is registered), then queried -/
def run {α : Type} (F : FactoryKind) (K : Codec α) (b : BvKind) (C : Cache) (st : F.State) (patterns : List Pattern) (c : F.Request) (iters : Nat)
    (kind : Kind) : Option (Report × F.State) := do
  let (m, st) ← F.make K b C st c
  let q ← m.idx.queries st.storage
  let r ← perform q patterns iters st.sizeSequence m.size kind
  return (r, st)

/-- all registered benchmarks one after another -/
def runAll {α : Type} (F : FactoryKind) (K : Codec α) (b : BvKind) (C : Cache) (patterns : List Pattern) :
    List (F.Request × Nat × Kind) → F.State → Option (List Report)
  | [], _ => some []
  | (c, iters, kind) :: l, st => do
    let (r, st) ← run F K b C st patterns c iters kind
    let rs ← runAll F K b C patterns l st
    return r :: rs

/-- Range(lo, hi) with RangeMultiplier(2) (contract of google benchmark, for 0 < lo ≤ hi < 2^63): `lo`, the powers of two between, `hi` -/
def rangeArgs (lo hi : Nat) : List Nat :=
  lo :: ((List.range 63).map (2 ^ ·)).filter (fun i => decide (lo < i) && decide (i < hi)) ++ (if hi = lo then [] else [hi])

/-- the runs that RegisterAllLocateBenchmarks registers (bm_locate_set.h:19-49, bm_locate.h:137-186; the micro benchmarks are left out, see
    `microCalls`): for each index the macro benchmark and, if asked for, the printing one, each for all rates of an index with sampling -/
def registerAll {F : FactoryKind} (configs : List (IndexConfig F)) (print : Bool) (lo hi : Nat) : List (IndexConfig F × Kind × Nat) :=
  configs.flatMap (fun c => (if print then [Kind.macroLocate, Kind.printLocate] else [Kind.macroLocate]).flatMap (fun k =>
    (if c.hasSampling then rangeArgs lo hi else [0]).map (fun r => (c, k, r))))

/-- the rounds of a run: one for the printing benchmark (bm_locate.h:182) -/
def Kind.rounds (iters : Nat) : Kind → Nat
  | .printLocate => 1
  | _ => iters

/-- the file of a run, if it writes one -/
def IndexConfig.fileOf {F : FactoryKind} (c : IndexConfig F) (rate : Nat) : Kind → Option (List Char)
  | .printLocate => some (c.file rate)
  | _ => none

/-- RunSpecifiedBenchmarks after that: the reports, and for the printing ones the name of the file (bm_locate_ri.cpp, bm_locate_csa.cpp: main).
    The macro benchmark has as many rounds as `iters` tells. -/
def runSuite {α : Type} (F : FactoryKind) (K : Codec α) (b : BvKind) (C : Cache) (patterns : List Pattern) (iters : Nat)
    (runs : List (IndexConfig F × Kind × Nat)) (st : F.State) : Option (List (Option (List Char) × Report)) := do
  let rs ← runAll F K b C patterns (runs.map (fun x => (x.1.request x.2.2, x.2.1.rounds iters, x.2.1))) st
  return (runs.map (fun x => x.1.fileOf x.2.2 x.2.1)).zip rs

end Bench
end Sri

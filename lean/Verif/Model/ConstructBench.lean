import Verif.Model.CacheSteps
import Verif.Model.Sizes
/-! # The construction benchmarks and their counters

benchmark/sr-index/bm_construct_ri.cpp and benchmark/sr-csa/bm_construct_csa.cpp: one function per class, which constructs the index in a loop
and then reads the sizes of some files of the cache. The memory logs that they write are left out. -/
namespace Sri
set_option autoImplicit false

/-- the counters of a benchmark, all `0` at first (setupCommonCounters, bm_construct_ri.cpp:22-27, bm_construct_csa.cpp:23-28) -/
structure ConstructCounters where
  n : Nat := 0
  r : Nat := 0
  s : Nat := 0
  kept : Nat := 0
deriving DecidableEq, Repr

/-- `sdsl::int_vector_buffer<> buf(sdsl::cache_file_name(key, t_config)); buf.size()` (bm_construct_ri.cpp:60-67, bm_construct_csa.cpp:64-71); on no file, or on one
    that is not complete, it is a fault -/
def bufferSize (s : Nat) (P : Process) (r : FileRef) : Option Nat :=
  match (CacheRead.buffer r).run s P with
  | some (.ints l) => some l.length
  | _ => none

/-- `for (auto _ : t_state) sri::construct(index, t_data_path, t_config)` (bm_construct_ri.cpp:42-46, 76-80, bm_construct_csa.cpp:44-48,
    88-92): the iterations share the configuration. The load of the index after each construction is left out. -/
def constructRounds (bytes : List Nat) (t : IndexType) (b : BvKind) (s : Nat) : Nat → Process → Option Process
  | 0, P => some P
  | k + 1, P => do
    let P ← constructIn bytes t b s P
    constructRounds bytes t b s k P

/-- the file whose size is reported as `r'`: KEY_BWT_RUN_LAST_IDX (bm_construct_ri.cpp:95-99) or KEY_BWT_RUN_FIRST_IDX, for all the classes
    of the other program (bm_construct_csa.cpp:109-113), with the rate in front -/
def keptRef : IndexType → FileRef
  | .srIndex | .srIndexValidMark | .srIndexValidArea => (.subLastIdx, none)
  | _ => (.subFirstIdx, none)

/-- BM_ConstructRIndex, BM_ConstructSRI (bm_construct_ri.cpp:39-100), BM_ConstructRCSA, BM_ConstructSrIndex (bm_construct_csa.cpp:40-114): the
    process and the counters after `k` iterations. The configuration is a copy of that of the program (bm_construct_ri.cpp:39, 71,
    bm_construct_csa.cpp:41, 83), so its file_map is new. -/
def benchConstruct (bytes : List Nat) (t : IndexType) (b : BvKind) (s k : Nat) (D : Disk) : Option (Process × ConstructCounters) := do
  let P ← constructRounds bytes t b s k (Process.fresh D)
  if t.subsampled then do
    let kept ← bufferSize s P (keptRef t)
    return (P, { s := s, kept := kept })
  else do
    let n ← bufferSize s P (.text, none)
    let r ← bufferSize s P (.first, none)
    return (P, { n := n, r := r })

/-- the benchmarks that the main of bm_construct_ri.cpp registers, in order, with their rates (bm_construct_ri.cpp:114-146): Range gives the
    rates, from --min_s to --max_s; those of the classes without a rate are `0` -/
def riBenchmarks (rates : List Nat) : List (IndexType × Nat) :=
  [(.rIndex, 0)] ++ rates.map (fun s => (.srIndex, s)) ++ rates.map (fun s => (.srIndexValidMark, s)) ++ rates.map (fun s => (.srIndexValidArea, s))

/-- the benchmarks that the main of bm_construct_csa.cpp registers (bm_construct_csa.cpp:144-194) -/
def csaBenchmarks (rates : List Nat) : List (IndexType × Nat) :=
  [(.rcsaWithBWTRun, 0), (.rcsaWithPsiRun, 0)] ++ rates.map (fun s => (.srCSA, s)) ++ rates.map (fun s => (.srCSASlim, s))
    ++ rates.map (fun s => (.srCSAWithPsiRun, s)) ++ rates.map (fun s => (.srCSAValidMark, s)) ++ rates.map (fun s => (.psiValidMark, s))
    ++ rates.map (fun s => (.srCSAValidArea, s)) ++ rates.map (fun s => (.psiValidArea, s))

/-- benchmark::RunSpecifiedBenchmarks: the benchmarks one after the other, with `iters t s` iterations after the first one. `--benchmark_filter`
    runs a sub-list of those registered. -/
def runBenchmarks (bytes : List Nat) (b : BvKind) (iters : IndexType → Nat → Nat) :
    List (IndexType × Nat) → Disk → Option (Disk × List ConstructCounters)
  | [], D => some (D, [])
  | (t, s) :: rest, D => do
    let (P, c) ← benchConstruct bytes t b s (iters t s + 1) D
    let (D, cs) ← runBenchmarks bytes b iters rest P.disk
    return (D, c :: cs)

end Sri

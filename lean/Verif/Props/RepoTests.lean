import Verif.Model.AllIndexes
import Verif.Model.Text
import Verif.Model.Legacy
import Verif.Model.LF
import Verif.Model.Streams
/-! # The cases of the repository's own unit tests, run through the model

These are tests of the model, not proofs of the properties: each `example` feeds the model the inputs of a test in /repo/test and checks the
expected values written there. They tie the model to the behaviour the authors of the code recorded. The names above the examples are the
names of the tests. -/
namespace Sri
set_option autoImplicit false

/-- the BWT most tests use, `abcabcababc$` with the symbols 1 to 4 -/
def tBwt : List Nat := [4, 4, 3, 4, 1, 2, 2, 2, 2, 3, 3, 3]
/-- its F array (test/bwt_tests.cpp:119, test/phi_tests.cpp:321) -/
def tF : List Nat := [0, 0, 1, 5, 9, 12]
/-- the same BWT with the terminator 0 (test/psi_tests.cpp:234) -/
def tBwt0 : List Nat := [99, 99, 98, 99, 0, 97, 97, 97, 97, 98, 98, 98]
/-- its cumulative counts, and its psi function -/
def tC : List Nat := [0, 1, 5, 9, 12]
/-- test/psi_tests.cpp:235 -/
def tPsi : List Nat := [4, 5, 6, 7, 8, 2, 9, 10, 11, 0, 1, 3]
/-- a bit vector written with 0 and 1, as in the tests -/
def bits (l : List Nat) : List Bool := l.map (fun x => decide (x = 1))

/-! ## test/bwt_tests.cpp -/

-- ComputeBWT_Tests.FromSAAndText ("$" is the byte 36, "a" 97)
example : computeBWT 12 [11, 10, 7, 0, 3, 5, 8, 1, 4, 6, 9, 2] [97, 98, 114, 97, 99, 97, 100, 97, 98, 114, 97, 36] = some { bwt := [(0, 97), (1, 114), (2, 100), (3, 36), (4, 114), (5, 99), (6, 97), (7, 97), (8, 97), (9, 97), (10, 98), (11, 98)], first := [⟨0, 0, 97, 10⟩, ⟨1, 1, 114, 9⟩, ⟨2, 2, 100, 6⟩, ⟨3, 3, 36, 11⟩, ⟨4, 4, 114, 2⟩, ⟨5, 5, 99, 4⟩, ⟨6, 6, 97, 7⟩, ⟨7, 10, 98, 8⟩], last := [⟨0, 0, 97, 10⟩, ⟨1, 1, 114, 9⟩, ⟨2, 2, 100, 6⟩, ⟨3, 3, 36, 11⟩, ⟨4, 4, 114, 2⟩, ⟨5, 5, 99, 4⟩, ⟨6, 9, 97, 5⟩, ⟨7, 11, 98, 1⟩], runs := 8 } := by decide +kernel
example : computeBWT 12 [11, 9, 6, 3, 0, 10, 7, 4, 1, 8, 5, 2] [97, 98, 99, 97, 98, 99, 97, 98, 99, 97, 98, 36] = some { bwt := [(0, 98), (1, 99), (2, 99), (3, 99), (4, 36), (5, 97), (6, 97), (7, 97), (8, 97), (9, 98), (10, 98), (11, 98)], first := [⟨0, 0, 98, 10⟩, ⟨1, 1, 99, 8⟩, ⟨2, 4, 36, 11⟩, ⟨3, 5, 97, 9⟩, ⟨4, 9, 98, 7⟩], last := [⟨0, 0, 98, 10⟩, ⟨1, 3, 99, 2⟩, ⟨2, 4, 36, 11⟩, ⟨3, 8, 97, 0⟩, ⟨4, 11, 98, 1⟩], runs := 5 } := by decide +kernel
example : computeBWT 12 [11, 6, 8, 3, 0, 7, 9, 4, 1, 10, 5, 2] [97, 98, 99, 97, 98, 99, 97, 98, 97, 98, 99, 36] = some { bwt := [(0, 99), (1, 99), (2, 98), (3, 99), (4, 36), (5, 97), (6, 97), (7, 97), (8, 97), (9, 98), (10, 98), (11, 98)], first := [⟨0, 0, 99, 10⟩, ⟨1, 2, 98, 7⟩, ⟨2, 3, 99, 2⟩, ⟨3, 4, 36, 11⟩, ⟨4, 5, 97, 6⟩, ⟨5, 9, 98, 9⟩], last := [⟨0, 1, 99, 5⟩, ⟨1, 2, 98, 7⟩, ⟨2, 3, 99, 2⟩, ⟨3, 4, 36, 11⟩, ⟨4, 8, 97, 0⟩, ⟨5, 11, 98, 1⟩], runs := 6 } := by decide +kernel

-- LFOnBWT_Tests.compute: `(range, c, new range)`; the test takes `bwt.size() - 1` for max_c
/-- test/bwt_tests.cpp:115-133 -/
def lfOnBwtCases : List ((Nat × Nat) × Nat × (Nat × Nat)) :=
  [((0, 11), 0, (1, 0)), ((0, 11), 1, (0, 0)), ((0, 11), 2, (1, 4)), ((0, 11), 3, (5, 8)), ((0, 11), 4, (9, 11)), ((1, 4), 1, (0, 0)), ((1, 4), 2, (1, 0)), ((1, 4), 3, (5, 5)), ((1, 4), 4, (10, 11)), ((10, 11), 2, (1, 0)), ((10, 11), 3, (7, 8))]
example : lfOnBwtCases.map (fun q => (RleString.build tBwt 2).bind fun s => computeLF s.rank (fun c => tF[c]?) q.1 q.2.1 tBwt.length (tBwt.length - 1)) =
    lfOnBwtCases.map (fun q => some q.2.2) := by decide +kernel

/-! ## test/sequence_ops_tests.cpp -/

-- CircularPredecessor_Tests.compute
example : ∀ q ∈ ([(0, (5, 11)), (1, (5, 11)), (2, (5, 11)), (3, (0, 2)), (4, (0, 2)), (5, (0, 2)), (6, (0, 2)), (7, (1, 6)), (8, (2, 7)), (9, (2, 7)), (10, (3, 9)), (11, (4, 10)), (12, (5, 11))] : List (Nat × (Nat × Nat))),
    circularPredecessor (bvRank (bits [0, 0, 1, 0, 0, 0, 1, 1, 0, 1, 1, 1])) (bvSelect (bits [0, 0, 1, 0, 0, 0, 1, 1, 0, 1, 1, 1])) 12 q.1 = some q.2 := by decide +kernel
-- CircularSoftSuccessor_Tests.compute
example : ∀ q ∈ ([(0, (0, 2)), (1, (0, 2)), (2, (0, 2)), (3, (1, 6)), (4, (1, 6)), (5, (1, 6)), (6, (1, 6)), (7, (2, 7)), (8, (3, 9)), (9, (3, 9)), (10, (4, 10)), (11, (5, 11))] : List (Nat × (Nat × Nat))),
    circularSoftSuccessor (bvRank (bits [0, 0, 1, 0, 0, 0, 1, 1, 0, 1, 1, 1])) (bvSelect (bits [0, 0, 1, 0, 0, 0, 1, 1, 0, 1, 1, 1])) 12 q.1 = some q.2 := by decide +kernel
example : ∀ q ∈ ([(11, (0, 2))] : List (Nat × (Nat × Nat))),
    circularSoftSuccessor (bvRank (bits [0, 0, 1, 0, 0, 0, 1, 1, 0, 1, 1, 0])) (bvSelect (bits [0, 0, 1, 0, 0, 0, 1, 1, 0, 1, 1, 0])) 12 q.1 = some q.2 := by decide +kernel

/-! ## test/sampling_test.cpp -/

-- ComputeSamplingForward_Test.execute
example : computeSampling 1 [4, 5, 2, 0, 1, 3] [5, 7, 2, 11, 0, 1] [] = some [4, 5, 2, 0, 1, 3] := by decide +kernel
example : computeSampling 2 [4, 5, 2, 0, 1, 3] [5, 7, 2, 11, 0, 1] [] = some [4, 2, 0, 1, 3] := by decide +kernel
example : computeSampling 4 [4, 5, 2, 0, 1, 3] [5, 7, 2, 11, 0, 1] [] = some [4, 2, 0, 1, 3] := by decide +kernel
example : computeSampling 6 [4, 5, 2, 0, 1, 3] [5, 7, 2, 11, 0, 1] [] = some [4, 0, 3] := by decide +kernel
example : computeSampling 8 [4, 5, 2, 0, 1, 3] [5, 7, 2, 11, 0, 1] [] = some [4, 1, 3] := by decide +kernel
example : computeSampling 6 [4, 5, 2, 0, 1, 3] [5, 7, 2, 11, 0, 1] [1, 2] = some [4, 2, 1, 3] := by decide +kernel
example : computeSampling 1 [3, 5, 2, 7, 6, 9, 8, 1, 0, 4] [16, 15, 10, 5, 17, 8, 12, 11, 14, 13] [] = some [3, 5, 2, 7, 6, 9, 8, 1, 0, 4] := by decide +kernel
example : computeSampling 4 [3, 5, 2, 7, 6, 9, 8, 1, 0, 4] [16, 15, 10, 5, 17, 8, 12, 11, 14, 13] [] = some [3, 5, 6, 0, 4] := by decide +kernel
example : computeSampling 8 [3, 5, 2, 7, 6, 9, 8, 1, 0, 4] [16, 15, 10, 5, 17, 8, 12, 11, 14, 13] [] = some [3, 9, 4] := by decide +kernel
example : computeSampling 4 [3, 5, 2, 7, 6, 9, 8, 1, 0, 4] [16, 15, 10, 5, 17, 8, 12, 11, 14, 13] [6, 3] = some [3, 5, 6, 0, 4] := by decide +kernel
example : computeSampling 8 [3, 5, 2, 7, 6, 9, 8, 1, 0, 4] [16, 15, 10, 5, 17, 8, 12, 11, 14, 13] [6, 3] = some [3, 6, 4] := by decide +kernel
-- ComputeSamplingBackward_Test.execute: the indices are read from the end
example : computeSampling 1 (([2, 4, 1, 5, 0, 3] : List Nat).reverse) [10, 7, 2, 11, 6, 9] [] = some [3, 0, 5, 1, 4, 2] := by decide +kernel
example : computeSampling 2 (([2, 4, 1, 5, 0, 3] : List Nat).reverse) [10, 7, 2, 11, 6, 9] [] = some [3, 5, 1, 4, 2] := by decide +kernel
example : computeSampling 4 (([2, 4, 1, 5, 0, 3] : List Nat).reverse) [10, 7, 2, 11, 6, 9] [] = some [3, 1, 4, 2] := by decide +kernel
example : computeSampling 8 (([2, 4, 1, 5, 0, 3] : List Nat).reverse) [10, 7, 2, 11, 6, 9] [] = some [3, 4, 2] := by decide +kernel
example : computeSampling 8 (([2, 4, 1, 5, 0, 3] : List Nat).reverse) [10, 7, 2, 11, 6, 9] [1, 4] = some [3, 1, 4, 2] := by decide +kernel
example : computeSampling 1 (([7, 6, 3, 9, 2, 5, 8, 1, 0, 4] : List Nat).reverse) [16, 15, 7, 5, 17, 8, 3, 2, 14, 6] [] = some [4, 0, 1, 8, 5, 2, 9, 3, 6, 7] := by decide +kernel
example : computeSampling 4 (([7, 6, 3, 9, 2, 5, 8, 1, 0, 4] : List Nat).reverse) [16, 15, 7, 5, 17, 8, 3, 2, 14, 6] [] = some [4, 8, 5, 3, 7] := by decide +kernel
example : computeSampling 8 (([7, 6, 3, 9, 2, 5, 8, 1, 0, 4] : List Nat).reverse) [16, 15, 7, 5, 17, 8, 3, 2, 14, 6] [] = some [4, 8, 9, 7] := by decide +kernel
example : computeSampling 4 (([7, 6, 3, 9, 2, 5, 8, 1, 0, 4] : List Nat).reverse) [16, 15, 7, 5, 17, 8, 3, 2, 14, 6] [8, 0] = some [4, 0, 8, 5, 3, 7] := by decide +kernel
example : computeSampling 8 (([7, 6, 3, 9, 2, 5, 8, 1, 0, 4] : List Nat).reverse) [16, 15, 7, 5, 17, 8, 3, 2, 14, 6] [8, 0] = some [4, 0, 8, 9, 7] := by decide +kernel

/-! ## test/rle_string_tests.cpp -/

-- AccessTests.rle_string, AccessTests.RLEString_byte, RLEString_int
example : (RleString.build [4, 4, 3, 4, 1, 2, 2, 2, 2, 3, 3, 3] 2).bind (fun s => (List.range s.size).mapM s.access) = some [4, 4, 3, 4, 1, 2, 2, 2, 2, 3, 3, 3] := by decide +kernel
example : (RLEString.build [4, 4, 3, 4, 1, 2, 2, 2, 2, 3, 3, 3] 2).bind (fun s => (List.range s.size).mapM s.access) = some [4, 4, 3, 4, 1, 2, 2, 2, 2, 3, 3, 3] := by decide +kernel
example : (RleString.build [99, 99, 98, 99, 36, 97, 97, 97, 97, 98, 98, 98] 2).bind (fun s => (List.range s.size).mapM s.access) = some [99, 99, 98, 99, 36, 97, 97, 97, 97, 98, 98, 98] := by decide +kernel
example : (RLEString.build [99, 99, 98, 99, 36, 97, 97, 97, 97, 98, 98, 98] 2).bind (fun s => (List.range s.size).mapM s.access) = some [99, 99, 98, 99, 36, 97, 97, 97, 97, 98, 98, 98] := by decide +kernel
example : (RleString.build [100, 101, 101, 101, 101, 100, 100, 98, 98, 97, 98, 100, 98, 100, 99, 100] 2).bind (fun s => (List.range s.size).mapM s.access) = some [100, 101, 101, 101, 101, 100, 100, 98, 98, 97, 98, 100, 98, 100, 99, 100] := by decide +kernel
example : (RLEString.build [100, 101, 101, 101, 101, 100, 100, 98, 98, 97, 98, 100, 98, 100, 99, 100] 2).bind (fun s => (List.range s.size).mapM s.access) = some [100, 101, 101, 101, 101, 100, 100, 98, 98, 97, 98, 100, 98, 100, 99, 100] := by decide +kernel

-- SelectTests.rle_string (ranks from 0) and SelectTests.RLEString (ranks from 1): `(rank, c, position)`
example : ∀ q ∈ ([(1, 1, 4), (1, 2, 5), (2, 2, 6), (4, 2, 8), (1, 3, 2), (2, 3, 9), (4, 3, 11), (1, 4, 0), (2, 4, 1), (3, 4, 3)] : List (Nat × Nat × Nat)), (RleString.build tBwt 2).bind (fun s => s.select (q.1 - 1) q.2.1) = some q.2.2 := by decide +kernel
example : ∀ q ∈ ([(1, 1, 4), (1, 2, 5), (2, 2, 6), (4, 2, 8), (1, 3, 2), (2, 3, 9), (4, 3, 11), (1, 4, 0), (2, 4, 1), (3, 4, 3)] : List (Nat × Nat × Nat)), (RLEString.build tBwt 2).bind (fun s => s.select q.1 q.2.1) = some q.2.2 := by decide +kernel

-- RankTests.rle_string, RankTests.RLEString, RankTests.RLEString_report: `(position, c, rank, rank of the run, contained)`
example : ∀ q ∈ ([(3, 1, 0, 0, false), (4, 1, 0, 1, true), (5, 1, 1, 1, false), (12, 1, 1, 1, false), (4, 2, 0, 0, false), (5, 2, 0, 1, true), (6, 2, 1, 1, true), (8, 2, 3, 1, true), (9, 2, 4, 1, false), (12, 2, 4, 1, false), (2, 3, 0, 1, true), (3, 3, 1, 1, false), (9, 3, 1, 2, true), (12, 3, 4, 2, false), (0, 4, 0, 1, true), (1, 4, 1, 1, true), (2, 4, 2, 1, false), (3, 4, 2, 2, true), (4, 4, 3, 2, false), (12, 4, 3, 2, false)] : List (Nat × Nat × Nat × Nat × Bool)),
    (RleString.build [4, 4, 3, 4, 1, 2, 2, 2, 2, 3, 3, 3] 2).bind (fun s => s.rank q.1 q.2.1) = some q.2.2.1 ∧
    (RLEString.build [4, 4, 3, 4, 1, 2, 2, 2, 2, 3, 3, 3] 2).bind (fun s => s.rank q.1 q.2.1) = some q.2.2.1 ∧
    (RLEString.build [4, 4, 3, 4, 1, 2, 2, 2, 2, 3, 3, 3] 2).bind (fun s => s.rankReport q.1 q.2.1) = some q.2.2 := by decide +kernel
example : ∀ q ∈ ([(4, 5, 0, 1, true), (4, 1, 0, 0, false)] : List (Nat × Nat × Nat × Nat × Bool)),
    (RleString.build [4, 4, 3, 4, 5, 2, 2, 2, 2, 3, 3, 3] 2).bind (fun s => s.rank q.1 q.2.1) = some q.2.2.1 ∧
    (RLEString.build [4, 4, 3, 4, 5, 2, 2, 2, 2, 3, 3, 3] 2).bind (fun s => s.rank q.1 q.2.1) = some q.2.2.1 ∧
    (RLEString.build [4, 4, 3, 4, 5, 2, 2, 2, 2, 3, 3, 3] 2).bind (fun s => s.rankReport q.1 q.2.1) = some q.2.2 := by decide +kernel

-- RankRawTests.RLEString_report: `(position, rank, c, run, start, end, rank of the run among those of c)`
example : ∀ q ∈ ([(0, 0, 4, 0, 0, 2, 0), (1, 1, 4, 0, 0, 2, 0), (2, 0, 3, 1, 2, 3, 0), (3, 2, 4, 2, 3, 4, 1), (4, 0, 1, 3, 4, 5, 0), (5, 0, 2, 4, 5, 9, 0), (6, 1, 2, 4, 5, 9, 0), (7, 2, 2, 4, 5, 9, 0), (8, 3, 2, 4, 5, 9, 0), (9, 1, 3, 5, 9, 12, 1), (10, 2, 3, 5, 9, 12, 1), (11, 3, 3, 5, 9, 12, 1)] : List (Nat × Nat × Nat × Nat × Nat × Nat × Nat)), (RLEString.build tBwt 2).bind (fun s => (s.rankAt q.1).map fun r => [r.1, r.2.1, r.2.2.1, r.2.2.2.1, r.2.2.2.2.1, r.2.2.2.2.2]) =
    some [q.2.1, q.2.2.1, q.2.2.2.1, q.2.2.2.2.1, q.2.2.2.2.2.1, q.2.2.2.2.2.2] := by decide +kernel

-- SelectRunTests.RLEString: `(rank, c, run)`
example : ∀ q ∈ ([(1, 1, 3), (1, 2, 4), (1, 3, 1), (2, 3, 5), (1, 4, 0), (2, 4, 2)] : List (Nat × Nat × Nat)), (RLEString.build tBwt 2).bind (fun s => s.selectOnRuns q.1 q.2.1) = some q.2.2 := by decide +kernel

-- SplitInRunsTests.rle_string, and SplitInRunsTests.RLEString, which cuts the runs it is given to the range: `(first, last, runs)`
/-- test/rle_string_tests.cpp:329-375 -/
def splitCases : List (Nat × Nat × List (Nat × Nat × Nat × Nat)) :=
  [(0, 11, [(0, 4, 0, 1), (1, 3, 2, 2), (2, 4, 3, 3), (3, 1, 4, 4), (4, 2, 5, 8), (5, 3, 9, 11)]),
   (4, 11, [(3, 1, 4, 4), (4, 2, 5, 8), (5, 3, 9, 11)]),
   (1, 11, [(0, 4, 1, 1), (1, 3, 2, 2), (2, 4, 3, 3), (3, 1, 4, 4), (4, 2, 5, 8), (5, 3, 9, 11)]),
   (1, 7, [(0, 4, 1, 1), (1, 3, 2, 2), (2, 4, 3, 3), (3, 1, 4, 4), (4, 2, 5, 7)]),
   (5, 8, [(4, 2, 5, 8)]),
   (6, 8, [(4, 2, 6, 8)]),
   (5, 7, [(4, 2, 5, 7)]),
   (6, 7, [(4, 2, 6, 7)]),
   (7, 7, [(4, 2, 7, 7)]),
   (3, 3, [(2, 4, 3, 3)]),
   (5, 10, [(4, 2, 5, 8), (5, 3, 9, 10)]),
   (7, 9, [(4, 2, 7, 8), (5, 3, 9, 9)])]
example : ∀ q ∈ splitCases, (RleString.build tBwt 2).bind (fun s => (s.breakInRuns q.1 q.2.1).map (·.map fun r => (r.run, r.c, r.first, r.last))) = some q.2.2 := by decide +kernel
example : ∀ q ∈ splitCases, (RLEString.build tBwt 2).bind (fun s => (s.splitInRuns q.1 (q.2.1 + 1)).map (·.map fun r => (r.rnk, r.c, max r.start q.1, min q.2.1 (r.stop - 1)))) =
    some q.2.2 := by decide +kernel

/-! ## test/psi_tests.cpp -/

-- AlphabetTests.construct
example : (Alphabet.build [99, 99, 98, 99, 0, 97, 97, 97, 97, 98, 98, 98]).C = [0, 1, 5, 9, 12] := by decide +kernel
example : (Alphabet.build [4, 4, 3, 4, 0, 2, 2, 2, 2, 3, 3, 3]).C = [0, 1, 5, 9, 12] := by decide +kernel
example : (Alphabet.build [100, 101, 101, 101, 101, 100, 100, 98, 98, 0, 98, 100, 98, 100, 99, 100]).C = [0, 1, 5, 6, 12, 16] := by decide +kernel

-- PsiTests.construct, store; psi_core_bv, psi_core_rle with the first symbol; psi_core_rle_rank_run
/-- bwt_run_start (test/psi_tests.cpp:211-217) -/
def runStarts (bwt : List Nat) : List Bool := (List.range bwt.length).map fun i => decide (i = 0 ∨ bwt[i - 1]? ≠ bwt[i]?)
example : constructPsi ([99, 99, 98, 99, 0, 97, 97, 97, 97, 98, 98, 98].map (Alphabet.build [99, 99, 98, 99, 0, 97, 97, 97, 97, 98, 98, 98]).char2comp) [0, 1, 5, 9, 12] = some [4, 5, 6, 7, 8, 2, 9, 10, 11, 0, 1, 3] := by decide +kernel
example : (PsiCoreBV.build [0, 1, 5, 9, 12] [4, 5, 6, 7, 8, 2, 9, 10, 11, 0, 1, 3]).bind (fun P => ((List.range 12).mapM (psiApply P.select [0, 1, 5, 9, 12])).map fun l => (P.first, l)) =
    some ((Alphabet.build [99, 99, 98, 99, 0, 97, 97, 97, 97, 98, 98, 98]).char2comp ([99, 99, 98, 99, 0, 97, 97, 97, 97, 98, 98, 98].headD 0), [4, 5, 6, 7, 8, 2, 9, 10, 11, 0, 1, 3]) := by decide +kernel
example : (PsiCoreRLE.build 64 [0, 1, 5, 9, 12] [4, 5, 6, 7, 8, 2, 9, 10, 11, 0, 1, 3]).bind (fun P => ((List.range 12).mapM (psiApply P.select [0, 1, 5, 9, 12])).map fun l => (P.first, l)) =
    some ((Alphabet.build [99, 99, 98, 99, 0, 97, 97, 97, 97, 98, 98, 98]).char2comp ([99, 99, 98, 99, 0, 97, 97, 97, 97, 98, 98, 98].headD 0), [4, 5, 6, 7, 8, 2, 9, 10, 11, 0, 1, 3]) := by decide +kernel
example : (PsiCoreRLE.build 64 [0, 1, 5, 9, 12] [4, 5, 6, 7, 8, 2, 9, 10, 11, 0, 1, 3]).bind (fun P => (List.range 13).mapM P.rankRun) =
    (List.range 13).mapM (bvRank (runStarts [99, 99, 98, 99, 0, 97, 97, 97, 97, 98, 98, 98])) := by decide +kernel
example : constructPsi ([4, 4, 3, 4, 0, 2, 2, 2, 2, 3, 3, 3].map (Alphabet.build [4, 4, 3, 4, 0, 2, 2, 2, 2, 3, 3, 3]).char2comp) [0, 1, 5, 9, 12] = some [4, 5, 6, 7, 8, 2, 9, 10, 11, 0, 1, 3] := by decide +kernel
example : (PsiCoreBV.build [0, 1, 5, 9, 12] [4, 5, 6, 7, 8, 2, 9, 10, 11, 0, 1, 3]).bind (fun P => ((List.range 12).mapM (psiApply P.select [0, 1, 5, 9, 12])).map fun l => (P.first, l)) =
    some ((Alphabet.build [4, 4, 3, 4, 0, 2, 2, 2, 2, 3, 3, 3]).char2comp ([4, 4, 3, 4, 0, 2, 2, 2, 2, 3, 3, 3].headD 0), [4, 5, 6, 7, 8, 2, 9, 10, 11, 0, 1, 3]) := by decide +kernel
example : (PsiCoreRLE.build 64 [0, 1, 5, 9, 12] [4, 5, 6, 7, 8, 2, 9, 10, 11, 0, 1, 3]).bind (fun P => ((List.range 12).mapM (psiApply P.select [0, 1, 5, 9, 12])).map fun l => (P.first, l)) =
    some ((Alphabet.build [4, 4, 3, 4, 0, 2, 2, 2, 2, 3, 3, 3]).char2comp ([4, 4, 3, 4, 0, 2, 2, 2, 2, 3, 3, 3].headD 0), [4, 5, 6, 7, 8, 2, 9, 10, 11, 0, 1, 3]) := by decide +kernel
example : (PsiCoreRLE.build 64 [0, 1, 5, 9, 12] [4, 5, 6, 7, 8, 2, 9, 10, 11, 0, 1, 3]).bind (fun P => (List.range 13).mapM P.rankRun) =
    (List.range 13).mapM (bvRank (runStarts [4, 4, 3, 4, 0, 2, 2, 2, 2, 3, 3, 3])) := by decide +kernel
example : constructPsi ([100, 101, 101, 101, 101, 100, 100, 98, 98, 0, 98, 100, 98, 100, 99, 100].map (Alphabet.build [100, 101, 101, 101, 101, 100, 100, 98, 98, 0, 98, 100, 98, 100, 99, 100]).char2comp) [0, 1, 5, 6, 12, 16] = some [9, 7, 8, 10, 12, 14, 0, 5, 6, 11, 13, 15, 1, 2, 3, 4] := by decide +kernel
example : (PsiCoreBV.build [0, 1, 5, 6, 12, 16] [9, 7, 8, 10, 12, 14, 0, 5, 6, 11, 13, 15, 1, 2, 3, 4]).bind (fun P => ((List.range 16).mapM (psiApply P.select [0, 1, 5, 6, 12, 16])).map fun l => (P.first, l)) =
    some ((Alphabet.build [100, 101, 101, 101, 101, 100, 100, 98, 98, 0, 98, 100, 98, 100, 99, 100]).char2comp ([100, 101, 101, 101, 101, 100, 100, 98, 98, 0, 98, 100, 98, 100, 99, 100].headD 0), [9, 7, 8, 10, 12, 14, 0, 5, 6, 11, 13, 15, 1, 2, 3, 4]) := by decide +kernel
example : (PsiCoreRLE.build 64 [0, 1, 5, 6, 12, 16] [9, 7, 8, 10, 12, 14, 0, 5, 6, 11, 13, 15, 1, 2, 3, 4]).bind (fun P => ((List.range 16).mapM (psiApply P.select [0, 1, 5, 6, 12, 16])).map fun l => (P.first, l)) =
    some ((Alphabet.build [100, 101, 101, 101, 101, 100, 100, 98, 98, 0, 98, 100, 98, 100, 99, 100]).char2comp ([100, 101, 101, 101, 101, 100, 100, 98, 98, 0, 98, 100, 98, 100, 99, 100].headD 0), [9, 7, 8, 10, 12, 14, 0, 5, 6, 11, 13, 15, 1, 2, 3, 4]) := by decide +kernel
example : (PsiCoreRLE.build 64 [0, 1, 5, 6, 12, 16] [9, 7, 8, 10, 12, 14, 0, 5, 6, 11, 13, 15, 1, 2, 3, 4]).bind (fun P => (List.range 17).mapM P.rankRun) =
    (List.range 17).mapM (bvRank (runStarts [100, 101, 101, 101, 101, 100, 100, 98, 98, 0, 98, 100, 98, 100, 99, 100])) := by decide +kernel

-- RankPsiTests.psi_core_rle_rank_simple, psi_core_rle_rank_extra: `(c, value, rank, start, end, run)`
example : ∀ q ∈ ([(0, 0, 0, 4, 5, 0), (0, 3, 0, 4, 5, 0), (0, 4, 0, 4, 5, 0), (0, 5, 1, 12, 12, 1), (0, 6, 1, 12, 12, 1), (0, 12, 1, 12, 12, 1), (1, 0, 0, 5, 9, 0), (1, 4, 0, 5, 9, 0), (1, 5, 0, 5, 9, 0), (1, 6, 1, 5, 9, 0), (1, 7, 2, 5, 9, 0), (1, 8, 3, 5, 9, 0), (1, 9, 4, 12, 12, 1), (1, 10, 4, 12, 12, 1), (1, 12, 4, 12, 12, 1), (2, 0, 0, 2, 3, 0), (2, 1, 0, 2, 3, 0), (2, 2, 0, 2, 3, 0), (2, 3, 1, 9, 12, 1), (2, 8, 1, 9, 12, 1), (2, 9, 1, 9, 12, 1), (2, 10, 2, 9, 12, 1), (2, 11, 3, 9, 12, 1), (2, 12, 4, 9, 12, 1), (3, 0, 0, 0, 2, 0), (3, 1, 1, 0, 2, 0), (3, 2, 2, 3, 4, 1), (3, 3, 2, 3, 4, 1), (3, 4, 3, 12, 12, 2), (3, 12, 3, 12, 12, 2)] : List (Nat × Nat × Nat × Nat × Nat × Nat)),
    (PsiCoreRLE.build 64 tC tPsi).bind (fun P => P.rank q.1 q.2.1) = some q.2.2.1 ∧
    (PsiCoreRLE.build 64 tC tPsi).bind (fun P => P.rankReport q.1 q.2.1) = some q.2.2 := by decide +kernel

-- SplitInRunsWithPsiTests.psi_core_rle: `(first, last, runs)`, sorted by position
example : ∀ q ∈ ([(0, 12, [(0, 2), (2, 3), (3, 4), (4, 5), (5, 9), (9, 12)]), (1, 5, [(1, 2), (2, 3), (3, 4), (4, 5)]), (2, 5, [(2, 3), (3, 4), (4, 5)]), (3, 5, [(3, 4), (4, 5)]), (4, 5, [(4, 5)]), (5, 9, [(5, 9)]), (6, 9, [(6, 9)]), (7, 9, [(7, 9)]), (8, 9, [(8, 9)]), (9, 12, [(9, 12)]), (10, 12, [(10, 12)]), (9, 11, [(9, 11)])] : List (Nat × Nat × List (Nat × Nat))),
    (PsiCoreRLE.build 64 tC tPsi).bind (fun P => (P.splitInSortedRuns q.1 q.2.1).map (·.map fun r => (r.first, r.last))) = some q.2.2 := by decide +kernel

-- ComputeForwardRunsWithPsiTests.psi_core_rle: `(c, first, last, runs)`
example : ∀ q ∈ ([(0, 1, 2, [(4, 5)]), (1, 1, 5, [(5, 9)]), (2, 1, 5, [(2, 3), (9, 12)]), (3, 1, 4, [(0, 2), (3, 4)]), (1, 1, 2, [(5, 6)]), (1, 2, 5, [(6, 9)]), (1, 3, 5, [(7, 9)]), (1, 3, 4, [(7, 8)]), (2, 2, 5, [(9, 12)]), (2, 3, 5, [(10, 12)]), (2, 4, 5, [(11, 12)]), (2, 3, 4, [(10, 11)]), (3, 2, 4, [(1, 2), (3, 4)])] : List (Nat × Nat × Nat × List (Nat × Nat))),
    (PsiCoreRLE.build 64 tC tPsi).bind (fun P => (P.computeForwardRuns q.1 q.2.1 q.2.2.1).map (·.map fun r => (r.first, r.last))) = some q.2.2.2 := by decide +kernel

/-! ## test/lf_tests.cpp -/

-- LFTests.rle_string, psi_core_bv, psi_core_rle: `(range, c, new range)`
/-- test/lf_tests.cpp:167-201 -/
def lfCases : List ((Nat × Nat) × Nat × (Nat × Nat)) :=
  [((0, 12), 0, (0, 1)), ((0, 12), 97, (1, 5)), ((0, 12), 98, (5, 9)), ((0, 12), 99, (9, 12)), ((1, 5), 0, (0, 1)), ((1, 5), 97, (1, 1)), ((1, 5), 98, (5, 6)), ((1, 5), 99, (10, 12)), ((10, 12), 97, (5, 5)), ((10, 12), 98, (7, 9)), ((1, 9), 98, (5, 6)), ((1, 10), 98, (5, 7)), ((1, 11), 98, (5, 8)), ((2, 5), 98, (5, 6)), ((2, 9), 98, (5, 6)), ((2, 10), 98, (5, 7)), ((3, 5), 98, (6, 6)), ((3, 10), 98, (6, 7)), ((9, 12), 98, (6, 9))]
example : ∀ q ∈ lfCases, (RLEString.build (tBwt0.map (Alphabet.build tBwt0).char2comp) 2).bind (fun s => LFOnPsi (fun c i => s.rank i c) (Alphabet.build tBwt0).C q.1 ((Alphabet.build tBwt0).char2comp q.2.1)) = some q.2.2 := by decide +kernel
example : ∀ q ∈ lfCases, (PsiCoreBV.build (Alphabet.build tBwt0).C tPsi).bind (fun P => LFOnPsi P.rank (Alphabet.build tBwt0).C q.1 ((Alphabet.build tBwt0).char2comp q.2.1)) = some q.2.2 := by decide +kernel
example : ∀ q ∈ lfCases, (PsiCoreRLE.build 64 (Alphabet.build tBwt0).C tPsi).bind (fun P => LFOnPsi P.rank (Alphabet.build tBwt0).C q.1 ((Alphabet.build tBwt0).char2comp q.2.1)) = some q.2.2 := by decide +kernel

-- LFTests.psi_core_bv_is_trivial, psi_core_rle_is_trivial
example : ∀ q ∈ lfCases, (PsiCoreBV.build tC tPsi).bind (fun P => P.exist ((Alphabet.build tBwt0).char2comp q.2.1) q.1.1) = some (decide (tBwt0[q.1.1]? = some q.2.1)) ∧
    (PsiCoreRLE.build 64 tC tPsi).bind (fun P => P.exist ((Alphabet.build tBwt0).char2comp q.2.1) q.1.1) = some (decide (tBwt0[q.1.1]? = some q.2.1)) := by decide +kernel

/-! ## test/phi_tests.cpp -/

/-- PhiBackward and PhiForward as the tests put them together: bit vector, links, trusted links, samples -/
def tPhiBackward (bv : List Bool) (links : List Nat) (ok : List Bool) (samples : List Nat) : Nat → Option (Nat × Bool) :=
  phiBackward (circularPredecessor (bvRank bv) (bvSelect bv) bv.length)
    (getSampleForPhi (fun i => do return (← links[i]?, ← ok[i]?)) (fun k => samples[k]?) validatorDefault) bv.length
/-- PhiForward_Tests (test/phi_tests.cpp:124-142) -/
def tPhiForward (bv : List Bool) (links : List Nat) (ok : List Bool) (samples : List Nat) : Nat → Option (Nat × Bool) :=
  phiForward (circularSoftSuccessor (bvRank bv) (bvSelect bv) bv.length)
    (getSampleForPhi (fun i => do return (← links[i]?, ← ok[i]?)) (fun k => samples[k]?) validatorDefault) bv.length

-- PhiBackward_Tests.compute, WithoutSampling: `(value, (next value, trusted))`
example : ∀ q ∈ ([(2, (5, true)), (5, (10, true)), (10, (1, true)), (1, (4, true)), (4, (9, true)), (9, (7, true)), (7, (0, true)), (0, (3, true)), (3, (8, true)), (8, (6, true)), (6, (11, true))] : List (Nat × (Nat × Bool))),
    tPhiBackward (bits [0, 0, 1, 0, 0, 0, 1, 1, 0, 1, 1, 1]) [1, 3, 0, 4, 5, 2] (bits [1, 1, 1, 1, 1, 1]) [5, 7, 2, 11, 0, 1] q.1 = some q.2 := by decide +kernel
-- PhiBackward_Tests.compute, WithSampling: `(value, (next value, trusted))`
example : ∀ q ∈ ([(2, (5, true)), (5, (10, true)), (10, (3, false)), (1, (4, true)), (4, (9, true)), (9, (2, false)), (7, (0, false)), (0, (3, true)), (3, (8, true)), (8, (1, false)), (6, (11, true))] : List (Nat × (Nat × Bool))),
    tPhiBackward (bits [0, 0, 1, 0, 0, 0, 1, 0, 0, 0, 0, 1]) [0, 2, 1] (bits [1, 0, 1]) [7, 2, 11] q.1 = some q.2 := by decide +kernel
-- PhiForward_Tests.compute, WithoutSampling: `(value, (next value, trusted))`
example : ∀ q ∈ ([(11, (6, true)), (6, (8, true)), (8, (3, true)), (3, (0, true)), (0, (7, true)), (7, (9, true)), (9, (4, true)), (4, (1, true)), (1, (10, true)), (10, (5, true)), (5, (2, true))] : List (Nat × (Nat × Bool))),
    tPhiForward (bits [1, 1, 1, 0, 0, 1, 0, 1, 0, 0, 0, 1]) [1, 0, 3, 2, 5, 4] (bits [1, 1, 1, 1, 1, 1]) [10, 7, 2, 11, 6, 9] q.1 = some q.2 := by decide +kernel
-- PhiForward_Tests.compute, WithSampling: `(value, (next value, trusted))`
example : ∀ q ∈ ([(11, (6, false)), (6, (1, false)), (8, (3, false)), (3, (0, true)), (0, (7, true)), (7, (2, false)), (9, (4, false)), (4, (1, true)), (1, (10, false)), (10, (5, false)), (5, (2, true))] : List (Nat × (Nat × Bool))),
    tPhiForward (bits [1, 0, 1, 0, 0, 1, 0, 0, 0, 0, 0, 1]) [0, 2, 1, 3] (bits [1, 0, 1, 0]) [7, 2, 11, 6] q.1 = some q.2 := by decide +kernel

/-- BasicLF over rle_string and the F array, as ComputeLinkForPhiForward_Tests builds it -/
def tLf (pos : Nat) : Option Nat := do
  let s ← RleString.build tBwt 2
  let c ← s.access pos
  let a ← tF[c]?
  let r ← s.rank pos c
  return a + r
/-- the positions of the bits of BWTHeadsPos and BWTTailsPos (test/phi_tests.cpp:324-325) -/
def tHeads : List Nat := [0, 2, 3, 4, 5, 9]
/-- see above -/
def tTails : List Nat := [1, 2, 3, 4, 8, 11]

-- ComputeLinkForPhiForward_Tests.MarkToSample_bv, MarkToSample_v, SampleToMark_v
example : tTails.mapM (markToSampleLink tLf (fun i => tPsi[i]?) (lowerBound tHeads) 12) = some [2, 5, 3, 4, 1, 0] := by decide +kernel
example : ([2, 5, 3, 4, 1, 0] : List Nat).mapM (fun k => do SrCSA.sampleToMarkLink tLf (fun i => tPsi[i]?) (lowerBound tTails) 12 (← tHeads[k]?)) = some [0, 1, 2, 3, 4, 5] := by decide +kernel

/-- the functors PhiForRange_Tests puts together, and PhiForRange itself -/
def tForRange (bv : List Bool) (links : List Nat) (ok : List Bool) (samples : List Nat) (runSampled : List Bool) (s : Nat)
    (range : Nat × Nat) (prev : Nat) : Option (List Nat) := do
  let rle ← RleString.build tBwt 2
  let F : ClosedPhi := {
    phi := tPhiBackward bv links ok samples
    split := rle.breakInRuns
    lf := fun range c => computeLF rle.rank (fun c => tF[c]?) range c rle.size (tF.length - 1)
    sampleAt := fun pos => do
      let (run, last) ← rle.runOf pos
      if pos ≠ last then return none
      else do
        let b ← runSampled[run]?
        if b then do
          let k ← bvRank runSampled run
          return some (← samples[k]?)
        else return none
    samplingSize := s
    bwtSize := rle.size }
  F.report range prev

-- PhiForRange_Tests.compute, PhiForRangeWithoutSampling: `(range, previous value, values)`
example : ∀ q ∈ ([((1, 10), 2, [5, 10, 1, 4, 9, 7, 0, 3, 8, 6]), ((5, 9), 5, [10, 1, 4, 9, 7]), ((2, 3), 0, [3, 8]), ((1, 1), 8, [6]), ((4, 4), 7, [0])] : List ((Nat × Nat) × Nat × List Nat)),
    tForRange (bits [0, 0, 1, 0, 0, 0, 1, 1, 0, 1, 1, 1]) [1, 3, 0, 4, 5, 2] (bits [1, 1, 1, 1, 1, 1]) [5, 7, 2, 11, 0, 1] (bits [1, 1, 1, 1, 1, 1]) 0 q.1 q.2.1 = some q.2.2 := by decide +kernel
-- PhiForRange_Tests.compute, PhiForRangeWithSampling: `(range, previous value, values)`
example : ∀ q ∈ ([((1, 10), 2, [5, 10, 1, 4, 9, 7, 0, 3, 8, 6]), ((5, 9), 5, [10, 1, 4, 9, 7]), ((2, 3), 0, [3, 8]), ((1, 1), 8, [6]), ((4, 4), 7, [0])] : List ((Nat × Nat) × Nat × List Nat)),
    tForRange (bits [0, 0, 1, 0, 0, 0, 1, 0, 0, 0, 0, 1]) [0, 2, 1] (bits [1, 0, 1]) [7, 2, 11] (bits [0, 1, 1, 1, 0, 0]) 5 q.1 q.2.1 = some q.2.2 := by decide +kernel

/-! ## test/toehold_tests.cpp -/

/-- an index of which only the BWT matters (ComputeDataBackwardSearchStepForPhiBackward reads nothing else) -/
def tLegacy : Option LegacyIndex := do
  let I ← LegacyIndex.build [2, 3, 4, 2, 3, 4, 2, 3, 2, 3, 4, 0] [11, 6, 8, 3, 0, 7, 9, 4, 1, 10, 5, 2] 1 2
  let rle ← RleString.build tBwt 2
  return { I with rle := rle }

-- GetLastSpecialBackwardSearchStepForPhiBackward_Test.execute
example : (tLegacy.bind fun I => I.update (0, 11) (0, 0) 1 4 ⟨5, (3, 11)⟩) = some ⟨4, (1, 11)⟩ := by decide +kernel
example : (tLegacy.bind fun I => I.update (0, 11) (1, 4) 2 4 ⟨5, (3, 11)⟩) = some ⟨4, (2, 11)⟩ := by decide +kernel
example : (tLegacy.bind fun I => I.update (0, 11) (5, 8) 3 4 ⟨5, (3, 11)⟩) = some ⟨5, (3, 11)⟩ := by decide +kernel
example : (tLegacy.bind fun I => I.update (0, 11) (9, 11) 4 4 ⟨5, (3, 11)⟩) = some ⟨4, (4, 11)⟩ := by decide +kernel
example : (tLegacy.bind fun I => I.update (9, 11) (6, 8) 3 1 ⟨2, (4, 11)⟩) = some ⟨2, (4, 11)⟩ := by decide +kernel
example : (tLegacy.bind fun I => I.update (9, 11) (1, 0) 1 1 ⟨2, (4, 11)⟩) = some ⟨2, (4, 11)⟩ := by decide +kernel

-- GetLastSpecialBackwardSearchStepForPhiForward_Test.execute
example : updateToehold PsiNav.lfTrivial RCSABwt.createData ⟨0, 12⟩ ⟨⟨0, 4, 5, 0⟩, ⟨1, 12, 12, 0⟩⟩ 0 4 ⟨5, 0⟩ = some ⟨4, 4⟩ := by decide +kernel
example : updateToehold PsiNav.lfTrivial RCSABwt.createData ⟨0, 12⟩ ⟨⟨1, 5, 9, 0⟩, ⟨5, 12, 12, 0⟩⟩ 1 4 ⟨5, 0⟩ = some ⟨4, 5⟩ := by decide +kernel
example : updateToehold PsiNav.lfTrivial RCSABwt.createData ⟨0, 12⟩ ⟨⟨5, 2, 3, 0⟩, ⟨9, 12, 12, 0⟩⟩ 2 4 ⟨5, 0⟩ = some ⟨4, 2⟩ := by decide +kernel
example : updateToehold PsiNav.lfTrivial RCSABwt.createData ⟨0, 12⟩ ⟨⟨9, 0, 2, 0⟩, ⟨12, 12, 12, 0⟩⟩ 3 4 ⟨5, 0⟩ = some ⟨5, 0⟩ := by decide +kernel
example : updateToehold PsiNav.lfTrivial RCSABwt.createData ⟨9, 12⟩ ⟨⟨6, 9, 12, 0⟩, ⟨9, 12, 12, 0⟩⟩ 2 1 ⟨2, 0⟩ = some ⟨2, 0⟩ := by decide +kernel
example : updateToehold PsiNav.lfTrivial RCSABwt.createData ⟨9, 12⟩ ⟨⟨0, 0, 0, 0⟩, ⟨0, 0, 0, 0⟩⟩ 1 1 ⟨2, 0⟩ = some ⟨2, 0⟩ := by decide +kernel

-- ComputeToeholdValueForPhiBackward_Test.execute: `(step, c, end, value)`; the test gives the suffix array itself as the value of a position
/-- ComputeToeholdValueForPhiBackward_Test (test/toehold_tests.cpp:157-172); buildComputeToeholdForPhiBackward (toehold.h:116-155) -/
def tToehold (d : StepData (Nat × Nat)) : Option Nat := do
  let rle ← RleString.build tBwt 2
  computeToehold (fun d => do
    let rnk ← rle.rank (d.2 + 1) d.1
    assertC (decide (0 < rnk))
    let j ← rle.select (rnk - 1) d.1
    assertC (decide (j ≤ d.2))
    ([11, 6, 8, 3, 0, 7, 9, 4, 1, 10, 5, 2] : List Nat)[j]?) rle.size d
example : ∀ q ∈ ([(0, 1, 11, 11), (0, 2, 11, 0), (0, 3, 11, 1), (0, 4, 11, 2), (2, 4, 11, 0), (0, 3, 4, 7), (1, 3, 4, 6), (1, 3, 11, 0), (2, 4, 11, 0)] : List (Nat × Nat × Nat × Nat)), tToehold ⟨q.1, (q.2.1, q.2.2.1)⟩ = some q.2.2.2 := by decide +kernel

/-! ## test/construct_tests.cpp -/

/-- the file of the test goes through constructText and the suffix sort -/
def tText (bytes : List Nat) : List Nat := match constructText bytes with
  | .stored T => T
  | .innerZero => []

/-- the two inputs of test/construct_tests.cpp -/
def alabar : List Nat := tText [97, 108, 97, 98, 97, 114, 97, 108, 97, 97, 108, 97, 98, 97, 114, 100, 97]
/-- see above -/
def abcabc : List Nat := tText [97, 98, 99, 97, 98, 99, 97, 98, 97, 98, 99]

-- RCSATests.construct: psi, heads, tails, links, marks
example : ((constructBase alabar (suffixArray alabar)).bind constructPsiItems).map (·.psi) = some [6, 0, 7, 10, 11, 13, 14, 15, 16, 17, 8, 9, 1, 2, 3, 4, 5, 12] := by decide +kernel
example : (SrCSA.commonsPsi alabar (suffixArray alabar) 4).map (·.tails) = some [17, 16, 8, 11, 13, 12, 15, 10, 5, 14] := by decide +kernel
example : (linksPhiForwardPsi [17, 16, 8, 11, 13, 12, 15, 10, 5, 14]).map (·.1) = some [8, 2, 7, 3, 5, 4, 9, 6, 1, 0] := by decide +kernel
example : (RCSAPsi.build alabar (suffixArray alabar)).map (fun I => (I.samples, I.markToSample, I.marks)) =
    some ([17, 16, 8, 2, 6, 3, 15, 7, 5, 14], [9, 3, 8, 4, 6, 5, 0, 7, 2, 1], bits [0, 0, 0, 0, 0, 1, 0, 0, 1, 0, 1, 1, 1, 1, 1, 1, 1, 1]) := by decide +kernel
example : ((constructBase abcabc (suffixArray abcabc)).bind constructPsiItems).map (·.psi) = some [4, 5, 6, 7, 8, 2, 9, 10, 11, 0, 1, 3] := by decide +kernel
example : (SrCSA.commonsPsi abcabc (suffixArray abcabc) 4).map (·.tails) = some [11, 0, 7, 1, 5, 2] := by decide +kernel
example : (linksPhiForwardPsi [11, 0, 7, 1, 5, 2]).map (·.1) = some [1, 3, 5, 4, 2, 0] := by decide +kernel
example : (RCSAPsi.build abcabc (suffixArray abcabc)).map (fun I => (I.samples, I.markToSample, I.marks)) =
    some ([11, 6, 7, 9, 10, 2], [2, 4, 0, 5, 3, 1], bits [1, 1, 1, 0, 0, 1, 0, 1, 0, 0, 0, 1]) := by decide +kernel

-- SRCSATests.construct: heads in the order of the text, kept heads, samples, kept marks, links, bit vectors, cumulative counts
example : (RCSAPsi.build alabar (suffixArray alabar)).map (fun I => sortIndices I.samples) = some [3, 5, 8, 4, 7, 2, 9, 6, 1, 0] := by decide +kernel
example : (RCSAPsi.build alabar (suffixArray alabar)).bind (fun I => SrIndex.subsampleIdx 4 I.samples (sortIndices I.samples).reverse I.markToSample) = some [0, 1, 2, 3, 8, 9] := by decide +kernel
example : (SrCSA.commonsPsi alabar (suffixArray alabar) 4).map (fun k => (k.csa.samples, k.sub, k.csa.markToSample)) = some ([17, 16, 8, 2, 5, 14], [14, 17, 16, 8, 10, 5], [5, 3, 4, 0, 2, 1]) := by decide +kernel
example : (SrCSA.buildPsi alabar (suffixArray alabar) 4).map (fun I => (I.marks, I.samplesIdx, I.cumRuns)) = some (bits [0, 0, 0, 0, 0, 1, 0, 0, 1, 0, 1, 0, 0, 0, 1, 0, 1, 1], bits [1, 1, 1, 1, 0, 0, 0, 0, 1, 1], [1, 5, 6, 7, 8, 10]) := by decide +kernel
example : (RCSAPsi.build abcabc (suffixArray abcabc)).map (fun I => sortIndices I.samples) = some [5, 1, 2, 3, 4, 0] := by decide +kernel
example : (RCSAPsi.build abcabc (suffixArray abcabc)).bind (fun I => SrIndex.subsampleIdx 4 I.samples (sortIndices I.samples).reverse I.markToSample) = some [0, 1, 2, 5] := by decide +kernel
example : (SrCSA.commonsPsi abcabc (suffixArray abcabc) 4).map (fun k => (k.csa.samples, k.sub, k.csa.markToSample)) = some ([11, 6, 7, 2], [2, 11, 0, 5], [2, 0, 3, 1]) := by decide +kernel
example : (SrCSA.buildPsi abcabc (suffixArray abcabc) 4).map (fun I => (I.marks, I.samplesIdx, I.cumRuns)) = some (bits [1, 0, 1, 0, 0, 1, 0, 0, 0, 0, 0, 1], bits [1, 1, 1, 0, 0, 1], [1, 2, 4, 6]) := by decide +kernel

-- SRCSAValidAreaTests.construct
example : (SrCSAValid.buildPsi alabar (suffixArray alabar) 4).map (fun I => (I.validMarks, I.validAreas)) = some (bits [1, 1, 1, 0, 0, 1], [1, 1]) := by decide +kernel
example : (SrCSAValid.buildPsi abcabc (suffixArray abcabc) 4).map (fun I => (I.validMarks, I.validAreas)) = some (bits [1, 0, 1, 0], [1, 4]) := by decide +kernel

/-! ## test/locate_tests.cpp -/

/-- the index types of test/locate_tests.cpp:89-105 -/
def testedTypes : List IndexType :=
  [.rIndex, .srIndex, .srIndexValidMark, .srIndexValidArea, .rcsaWithBWTRun, .rcsaWithPsiRun, .srCSA, .srCSASlim, .srCSAValidMark, .srCSAValidArea,
   .srCSASlimValidMark, .srCSASlimValidArea, .srCSAWithPsiRun, .psiValidMark, .psiValidArea]

-- LocateTests.Locate: every index type with rate 6; the results are sorted before they are compared
example : ∀ t ∈ testedTypes, (buildIndex t abcabc (suffixArray abcabc) 6).bind (fun q => (q.locate [97, 98]).map (sortBy (fun x => x))) = some [0, 3, 6, 8] := by decide +kernel
example : ∀ t ∈ testedTypes, (buildIndex t abcabc (suffixArray abcabc) 6).bind (fun q => (q.locate [97, 98, 97]).map (sortBy (fun x => x))) = some [6] := by decide +kernel
example : ∀ t ∈ testedTypes, (buildIndex t abcabc (suffixArray abcabc) 6).bind (fun q => (q.locate [98, 99]).map (sortBy (fun x => x))) = some [1, 4, 9] := by decide +kernel

end Sri

# Design

A Lean 4 model of the index library in /repo (headers under include/sr-index), and theorems about it.

## Trusted base

* Lean 4.33.0's kernel. Axioms used: at most `propext`, `Classical.choice`, `Quot.sound`
  (no axioms of our own, no `sorry`, no `native_decide`/`bv_decide`).
* The reading of the C++ code: every definition of the model cites the file and lines it models.
* Library code that is not in /repo is represented by its contract (see "Contracts").

## Modelling conventions

* `Nat` for `std::size_t`. A subtraction that would wrap, a division by zero, an out-of-range access,
  a `select` beyond the number of ones, a failing `assert` and a null dereference are faults: the model
  functions return `Option`, `none` being "fault". A theorem "returns `some ...`" therefore also says
  that none of these happen. Sums are not bounded by 2^64 (they are below 4n); Model/Words repeats the queries and Model/WordBuild the
  construction with all sums, differences and products modulo 2^64, no fault on wrap-around, and `int` counters as `int`s; C71 and C72
  prove that nothing changes below 2^31 symbols.
* The width of the text is 8 (bytes), the one every class and test uses by default; width 0 (integer alphabets) is C58.
* Functors/lambdas of the C++ templates are higher-order Lean functions; a `report` callback becomes
  the list of reported values, in order.
* Loops become structural recursion, or recursion on a fuel argument whose sufficiency is proved
  (running out of fuel is a fault, so a `some` result includes termination).

## Contracts (not in /repo)

* sdsl bit vectors (`bit_vector`, `sd_vector`, ...) with rank/select: a `List Bool`, rank = number of ones
  before, select = position of the k-th one, undefined outside 1..ones.
* sdsl wavelet trees: a `List Nat` with access/rank/select/inverse_select.
* sdsl `int_vector`: `List Nat`. Its file begins with size and width, so a file of bytes read through an `int_vector_buffer<>` (r_csa.h:657,
  sr_csa.h:1023) has its right size.
* sdsl `byte_alphabet`: `char2comp`, `C`, `sigma` (absent characters map to 0).
* sdsl suffix-array construction: any list satisfying `IsSA` (proved to exist and to be unique).
* sdsl `structure_tree`: add_child finds or makes the child with a name and a class, add_size adds; `util::class_name` tells the dynamic class without its
  template arguments; a type of sdsl files one node with the number it returns (what it files below is left out).
* `std::sort`, `std::map`, `std::any`, `std::find`, `std::lower_bound`: their standard meaning.

## Plan per property

| id | model | proof |
|----|-------|-------|
| C01,C02 | index_base.h Count, lf.h, index-specific LF | invariant of backward search: the range is the set of SA positions whose suffix starts with the processed pattern suffix |
| C03-C05 | RIndex, RCSAWithBWTRun, RCSAWithPsiRun (construct + query) | toehold invariant + phi correctness + induction over the range |
| C06-C12 | SrIndex*, SrCSA*, SRCSA* (construct + query) | subsampling lemma (gap invariant), induction on level and range |
| C13 | corollary of C03-C12 | permutation of the same list |
| C14 | get_symbol of absent characters | the code violates it: negation for every text; partial theorem; `c14_*_around` say exactly what is answered |
| C15 | empty pattern | Count proved; Locate: behaviour of the code stated, negation |
| C16,C17 | phi.h PhiBackward/PhiForward over constructed marks/samples/links | LF preserves adjacency inside runs |
| C18 | toehold.h | invariant over search steps |
| C19 | sampling.h | induction over the sample list |
| C20 | construct.h computeSubmarksValidity, tools.h SampleValidator | induction over marks |
| C21,C22 | RLEString | refinement to plain sequence |
| C23-C25 | psi.h PsiCoreRLE, PsiCoreBV | refinement to sorted value lists |
| C26 | constructPsi, Psi, LF | permutation algebra |
| C27 | computeBWT, constructBWTRuns | induction |
| C28 | sequence_ops.h | rank/select laws |
| C29 | coder.h, enc_vector.hpp | round trip |
| C30-C33, C43 | storage, serialize/load as token streams | induction over item lists; negations where the code violates them |
| C34 | construction as guarded steps over the files of a cache (CacheSteps), stores as open and close events, a crash after any number of events | invariant "every complete file has its ideal value" over histories; partial theorems for the directories in which every step that will be skipped is done; three negations for every text and every later history, by invariants of all steps (CacheGap), and two for half-written files that later steps read (Props/HalfWritten) |
| C35 | constructText | case analysis |
| C36 | formatted stream read | negation + partial |
| C37 | fuel sufficiency, result length | corollaries |
| C38 | bwt.h computeLF | from C02 |
| C39 | order of reports | from the phi induction |
| C40 | int loop counters | negation (range of `int`), partial |
| C41,C42 | rle_string, huff_string, sparse vectors | refinement |
| C44 | queries are functions of (index, pattern) | state machine over query sequences |
| C45 | file names on disk, one process per data set moving store by store in any order (SharedDir) | each process simulates one that is alone in its directory (C34); names injective, and disjoint unless one id is the other with only words of the keys and numbers in front; negations: equal file names, the ids x and text_pos_x, two processes on one data set |
| C46 | serialize/load of the structures down to sdsl's values (Streams); a support is data + pointer | codec laws, induction over vectors; negations for sparse vectors |
| C47 | copy/move/assignment with pointers that may lead into the source (Copies) | case analysis on pointers; negations for every content |
| C48 | CSARaw: items, construction of functors, values, streams (CSARaw) | the search invariants of the psi family (C01-C04) plus induction over the loop that reads the suffix array |
| C49 | functors over inclusive ranges, composed as in test/phi_tests.cpp and benchmark/factory.h (Legacy). benchmark/ itself uses keys that include/ no longer has; the functors are public | invariant "the data lead to the entry at the end of the range" over the search; induction on level and range for the reporters (ClosedRange); items shown to be those of the compacted text |
| C50 | GetLastValue, ComputeAllValuesWithPhi under RIndexBase (Legacy) | the result of GetLastValue is dropped: closed form of the wrong answers for every text; exactness if it were kept |
| C51 | the search loops with every symbol, absent ones read as the terminator (SpecAround, Proofs/Around, Props/Around) | invariant: the range is the interval of the positions at which the looked-up suffix of the pattern is read around the end of the text; toehold invariant for every symbol |
| C52 | every construction again with bit-packed vectors: each value cut to the width in the code, later steps read the cut values (Model/Widths, Proofs/Widths, Props/Widths) | each width exceeds the values stored in it; the constructions agree with the unbounded ones, so every answer carries over |
| C53 | lf.h functors over the three rank structures (LF) | rank = number of the symbol in a prefix of the BWT; LF takes the positions before suffixes to suffixes in order |
| C54 | constructions with either algorithm over a data file, the tool's files beside it and the files of a cache (BigSteps) | invariant of C34 plus "tool files only with the BWT in the cache"; negation for every data file, index and rate by an invariant over repeated attempts |
| C55 | number of entries in every vector an index loads (Sizes) | counting invariant of the greedy sampling loop: any two samples apart by one kept sample are more than `s` apart; sizes of the vectors through every construction |
| C56 | the functions of a Locate query with a counter of the calls they make (Work) | the counter erased gives the modelled function; a rule of composition for costs; induction over levels: each position costs at most 4 calls per level (3 forwards), and there are `s` levels; the toehold walks fewer than `s` steps because a dropped sample lies between kept ones at most `s` apart |
| C57 | every serialize with its counter, class by class along the inheritance (ByteCount), beside the bytes of Objects and Streams | the bytes are those of C30/C46; counter = number of bytes is kept by every `+=`; contract: each type of sdsl returns what it writes |
| C58 | constructBWTRuns for integer alphabets, whose local variables refer to a cell of the BWT; every class made of the items it leaves (IntAlphabet, IntClasses), with the symbols of a pattern passed as `char` | the two variables refer to the same cell, so they never differ; each class is its byte construction from the items on (`buildIndex_ofBase`), whose search part satisfies the invariant of C01 or C05 whatever the runs are; with one sample a correct one-symbol answer would make the whole BWT one run, or needs a sample that is not there; the slim order puts the only kept run after that of the terminator |
| C59 | the constructor of RLEString for the element types byte, `char`, and reference into an sdsl::int_vector (RLEElements) | for bytes, equality with C21's constructor; otherwise invariants of the loop: one map entry, all heads refer to cell 0 |
| C60 | both benchmark factories over a storage and a file cache: requests, the map of made indexes, loading through the shared storage (Factory) | invariant over the history: every kept entry is the object its request asks for, and the storage holds only items of the built index; `load` of C31/C32 gives the exact index |
| C61 | base64.h, loop by loop, with the 32-bit counter of the encoder (Base64; vocabulary in SpecText) | induction over groups of three bytes and of four characters; the bit masks by a complete case analysis over all bytes; a counter below 2^32 never equals a larger length |
| C62 | ReadPatterns with getline on the bytes of a file (Bench) | the lines of a file as its decomposition at newlines; induction over them |
| C63 | the loops of the locate and count benchmarks, their files and counters, run over a factory (Bench) | C60 gives an exact index for each request; sorting a permutation of the occurrences gives them in order; rounds start anew; the registration of a whole program (configurations, Range of rates, print flag) gives one run for each expected class, rate and report |
| C64 | bm_construct_ri.cpp and bm_construct_csa.cpp over the processes and files of Construct (ConstructBench): rounds of construct, then the counters from the sizes of cached items | C44's history invariant says what each file holds; C55 counts the samples; the subsampling along psi and along the BWT keep the same text positions (renaming of the sampling loop) |
| C65 | bm_build_ri_items.cpp benchmark by benchmark over a directory of keys, with the guards of its main, and the loading and composition of the indexes in benchmark/factory.h (LegacyItems), the loops of bm_locate.cpp (Bench) | per-step lemmas: each step writes the ideal value of its keys if the keys it needs are ideal; the plan of steps covers its needs; the loaded indexes are those of C16..C18 |
| C66 | int_vector_to_vector.cpp as bytes written, plot_marks.py up to its plots (MarksPlot), over the cache of C34 and the programs of C64 | words: induction on the vector; contents of the files from the history invariant of C34, the runs from C27, the sampling from computeSampling's bracket property; failures by the outputs of the steps |
| C67 | Config::keys as a map from entries to names, and for every step of every construction which of its names come from it and which are fixed; setupKeyNames and load with them (ConfigKeys) | the processes with the names `k` and with the usual names are bisimilar when the names are usable (C34's history invariant then applies); failures by invariants of all histories: psi and the alphabet are stored under their fixed names only |
| C68 | construct(index, path, config) as the steps of its items followed by load into the object, with the copy of the base that the validated SR-CSA classes construct and load first (DefaultObject) | C34's history invariant and C46's load lemmas; for objects without a rate an invariant of all histories: no file or registered name lacks the rate where the object looks for one |
| C69 | construct and load(config) on an object with the storage it has from before (DefaultObject, Objects) | every item an object needs is found in its storage (C31's lemma), so load reads nothing; the validated SR-CSA classes also load a base whose items are among theirs |
| C70 | the structure tree as a map from paths of keys to sizes, with add_child and add_size as contracts of sdsl; every serialize of ByteCount followed once more with its nodes (SizeTree), the entries of each class in a specification of their own (SpecTree) | one predicate for a call that files parts under a node, closed under sequence, nesting and the entry of a base class (which finds the node of the object, class_name being that of the dynamic type) |
| C71 | the query functors once more over 64-bit words that wrap around (Words), and below them every operation of the run-length string and of the run-length psi (WordCores); the bit vectors, wavelet trees and the decoder of the sampled vector as before | a relation between the two computations (every answer over the natural numbers is an answer over words) closed under sequence; bounds on every intermediate value from the invariants of the indexes |
| C72 | the construction once more over 64-bit words that wrap around and `int` counters (WordBuild), followed by the queries of C71; suffix array, BWT, alphabet, sorting, bit vectors and the sampled vector as before | the relation of C71; every item equal to the one of the construction over natural numbers, by bounds on every intermediate value; above 2^31 symbols the `int` counter of constructBWTRuns faults for every class |
| C73 | nothing new but the meeting point of the other models: the items of a loaded object (Objects) under the functors over 64-bit words (Words): WordObjects | composition: construct over any history gives an object over the items of the index (C40, C68), serialize and load(in) keep the items (C30, C46), the bytes are counted (C57), the answers over these items in machine words are exact (C01, C71) |
| C74 | the steps of C34 while the files in a set `F` cannot be opened: what store_to_cache would store is skipped, an int_vector_buffer is a failing assertion, load_from_cache of a missing file leaves an empty object; the bit vector of the marks along psi is made from memory, not from their file; a construction that stops because a file is missing, or because the first buffer of a step cannot be opened for writing, leaves what it has stored (FailedWrites) | invariant "what is there is right" over histories, with "skipped steps have their unchecked files" (Proofs/FailedWrites); of the thirteen files that later steps read unchecked, five are shown to make the same construction fail when they are lost and needed (a buffer on them cannot be opened, or what is computed from nothing cannot be used); the other eight are `looseFiles`, and for each of them c74_loose_violation has a history that leads to an index that never returns from Locate, so the hypothesis of c74_checked_partial on constructions that complete is the weakest of its kind; constructions that stop because a file is missing may be anywhere in the histories if all but one of the thirteen can be written, and c74_halt_violation shows that the eight are not enough for them; negation for every text for three of them: the steps after the missing file are run on a file of no integers (Proofs/LostOrder, LostRun), the loaded items have no samples, the search for a sample never ends. Repair: the histories leave only right files, so the argument of C34 for directories with gaps applies (c74_repair_partial); its negation for the rank support of the marks: no step reads it, so construction runs as if it had been written (Proofs/LostUnread), and then the step that writes it is skipped for ever (c74_repair_violation). Missing: what a construction leaves that fails because a buffer cannot be opened for writing, and the load that `construct` ends with |
| C75 | any number of processes, each in the steps of C34 with its own file_map, on one directory: a move is the beginning of a step (its guards are looked for, its inputs read and its results computed), or one opening or closing of a file; a schedule says who moves (Race; `Apart` in SpecRace) | invariant: the directory in which every step that was begun is done is as complete constructions leave it, except that the samples of psi runs may be there without the marks while a process is between the two; steps that touch different files commute (Proofs/Race). At different rates nothing is touched that another process writes, so every schedule is apart. Negation for every text: a process that reads the text while another has it open; and the gap between samples and marks of C34, reached by another process instead of a crash. `c75_silent_violation` shows, on one text, two RIndex or two SRCSAValidArea constructions that both report success and leave an index that counts and does not locate. Simplified: looking, reading and computing is one move, so a process that looks for a file and then reads it while it is replaced is not covered outside the schedules of `Apart`, under which it cannot happen |
| C76 | the functions of a Count query with a counter of the ranks, selects, decoded codes and samples they ask sdsl for (CountWork), and std::upper_bound as the search that halves a range instead of its contract | the counter erased gives the modelled function, which for the search means that it meets the contract on the sorted samples; in the run-length string a block has 2 runs, so a rank passes at most one run; over psi the search reads log2 of the number of samples and the scan from a sample passes at most 32 runs |
| C77 | every function of a Locate query with a counter of the ranks, selects, accesses, decoded codes and samples it asks sdsl for (LocateWork), and std::upper_bound over the sampled ranks and over the cumulative counts as its search; sorting the reported runs, arithmetic and comparisons are not counted | the counter erased gives the modelled function; each functor makes at most B operations per call (and per reported run, for those that split a range), so a query makes at most B per call that C56 counts; phi makes at most 7, a rank over psi passes at most 32 runs after the search, the split of a range asks the runs of every symbol |
| C78 | the model of C20 | every report of computeSubmarksValidity names a mark that was removed (Proofs/Validity: `submarksValidity_tight`), so the stored area ends at a removed mark; compared with the predecessor (successor) among all marks in Proofs/ValidityExact. False of SrIndexValidArea at the removed mark itself: violation for every text and rate in which a mark is removed, partial theorem with the exact condition |
| C79 | the model of C19 and C55 | two runs of the loop of computeSampling side by side: the one with the greater rate is ahead by at most one sample, and by none while the sample it kept last lies no earlier (Proofs/RateMono) |
| C80 | the builds of C01-C05 and C20 | the sampling keeps every run at a rate of at most one; marks and samples are then those of all the runs in the order of the class, two sortings of the same marks agree, and a link is fixed by the run its mark precedes (Proofs/RateOne) |
| C81 | plot_queries.py from the tables pandas has read: the loop over the results, the table written, the lists behind the curves (Model/PlotQueries) | induction over the results: the lists are those of the listed indexes in the order of their first result (Proofs/PlotQueries) |
| C82 | the builds and queries of C01-C12 | a renaming that keeps the order gives the same suffix array, the same compact BWT and the same runs; every later step reads the alphabet only through `C` and the number of symbols, and a query reads its characters only through char2comp (Proofs/Rename, Proofs/RenameBuild) |
| C83 | build_bm.sh and run_bm.sh: expansion of the directory, the loop, where each path points from the directory the program runs in (Model/Drivers) | induction over the collections: the script is back where it started after each (Props/Drivers) |
| C84 | sessions: lists of constructions and restarts over the steps and the directory of C34 (Model/CacheSteps) | every construction leaves exactly the right content of the files it had or outputs, so the directory is determined by the set of requests (Props/BuildOrder) |
| C85 | sizes of the members of RLEString, PsiCoreRLE and enc_vector as built (Model/RLEString, Psi, EncVector) | exact counts from the run-length form of the sequence; bits bounded by the code length of the differences, which are positive and at most the length (Proofs/RunSpace) |

## What is modelled, file by file (include/sr-index)

| file | modelled in | left out |
|------|-------------|----------|
| alphabet.h, construct_base.h | Alphabet, Construct, CacheSteps | memory-monitor events |
| bwt.h | Bwt, PsiText, Legacy | |
| coder.h, enc_vector.hpp | EncVector, EncVectorCtor (both constructors pass by pass, 64-bit words wrap), Streams | iterator typedefs; the coder's code tables are the contract "decode after encode" of Elias delta, modelled bit by bit |
| config.h | SharedDir, BigSteps, CacheSteps, Objects, ConfigKeys (names given by the caller) | JSON itself: an object of names is a partial map; entries that nothing reads |
| construct.h, construct_sdsl.h | Construct, CacheSteps, DefaultObject, PsiText, Sampling, Widths, Text, IntAlphabet and IntClasses (width 0) | width 0 of the legacy classes |
| construct_big_bwt.h | BigBWT, BigSteps | the tool itself: it leaves `.bwt`, `.ssa`, `.esa` (contract `toolFiles`) |
| definitions.hpp, io.h | Streams, ByteCount, CacheSteps, FailedWrites | typedefs |
| index_base.h | IndexBase, Storage, Objects, Copies, Legacy, ByteCount, SizeTree | `operator=` on void members |
| lf.h | LF, RIndex, RCSA | |
| phi.h | Phi, PhiRange, Legacy | constructors that only store functors |
| psi.h | Psi, PsiText, Streams, Copies | |
| r_index.h, sr_index.h, r_csa.h, sr_csa.h, sr_csa_psi.h | RIndex, SrIndex, RCSA, SrCSA, CSARaw (queries and values built), Objects and Storage (load, serialize, sharing), CacheSteps (construction over files), Widths (bit-packed vectors) | template arguments other than the defaults, except the kind of the bit vectors (`sd_vector` or `bit_vector`) in Objects/CacheSteps |
| rle_string.hpp | RleString (rle_string), RLEString (RLEString), RLEElements (element types of its constructor), Streams, Copies | |
| huff_string.hpp, sparse_sd_vector.hpp, sparse_hyb_vector.hpp | Sparse, Streams, Copies | |
| sampling.h | Sampling, Widths, Sizes (entries per index) | |
| sequence_ops.h | SequenceOps | |
| toehold.h, tools.h | Phi, Legacy, LF, SrCSA | |

Props/RepoTests runs the model on the inputs of the unit tests of /repo/test and checks the values expected there (every test of
the ten files except those that write an object to a file and read it back, which C30 treats). These are tests of the model, not
proofs; they show that the model computes what the authors recorded.

Of benchmark/, base64.h (Base64), the two factories sr-index/factory.h and sr-csa/factory.h (Factory), the query benchmarks over them (Bench) and the
construction benchmarks (ConstructBench) are modelled; of the library of benchmarks only the number of rounds and the registered name are. bm_build_ri_items.cpp, the
loading in benchmark/factory.h and the loops of bm_locate.cpp are modelled in LegacyItems and Bench; the compositions of functors in benchmark/factory.h and
test/phi_tests.cpp are modelled (Legacy). tool/int_vector_to_vector.cpp and tool/plot_marks.py up to its plots are modelled
(MarksPlot); and so is benchmark/plot_queries.py from the tables on (PlotQueries), and the scripts build_bm.sh and run_bm.sh up to the programs they start (Drivers). Time is
not modelled, except for the number of steps where C37 says so, the number of calls of a Locate query (C56) and the number of operations of a Count (C76) and a Locate query (C77); space is counted in entries (C55). Threads do not occur in /repo; concurrent processes are C45 and C75.

## Where the code does not have the property

Each is a theorem (`*_violation`, or named below), not an observation:

* A character that is not in the text is read as the terminator (C14, exact answers in C51).
* `Locate("")` (C15): a fault on RIndex and the SrIndex family, for every text; on SrCSA, SrCSASlim and SrCSAWithPsiRun one position is
  reported twice, for every text and rate (Proofs/EmptyForw.lean: reporting from a wrong toehold); with validity information the
  answer has the right length but starts with the wrong position, for every text and rate (Proofs/EmptyForwV.lean), and repeats one on some texts.
  At a rate of at most one it is the suffix array rotated, so that every position is there once (Proofs/EmptyOne.lean).
* `load(istream)` into a storage that has items (C31, C32), items of one key with different types (C32), streams of the psi-run family
  without the rate and of ValidMark/ValidArea with plain bit vectors (C30, C33). These are proved for all texts, types and rates
  (Proofs/StreamStuck.lean: a stream that is read out of step). There a codec is also taken to be typed (`Codec.Typed`): loading the bytes of
  one type as another is outside the contract of sdsl and counts as a fault.
* `serialize` of a pair in io.h adds the results of two calls that write to the stream; C++ does not fix their order, and with the right one first
  no psi can be read back (`c46_pair_order_violation`). sdsl writes std::vector with the same idiom; its order is part of the contract.
* A crash of a construction between the samples and the marks of psi runs, or between the validity of marks and their areas, loses the
  index for good, although no file is half written: later constructions skip the first and take the second for empty
  (`c34_psi_forever_violation`, `c34_areas_violation`). In the first case SRCSAValidMark and SRCSAValidArea can never be constructed
  again at this rate; in the second SRCSAValidArea is constructed without areas.
* Stores that fail are not noticed: without the file of the sorted indices SrIndex, SrCSA, SrCSASlim and SrCSAWithPsiRun are constructed, load and
  count, but never locate (`c74_order_violation`, for every text and rate), and constructing again does not help.
* A crash in the middle of a store leaves a file that later runs take for complete (C34): if it is the text, the suffix array or the BWT, no index
  of the data set is ever constructed again in that directory (`c34_half_written_violation`, for every text); two processes, or two data sets with equal or
  overlapping names, spoil each other's files (C45).
* Formatted reading of the tool's `.bwt` skips white space (C36); the step that stores the BWT is guarded by the tool's file (C54).
* `int` counters (C40).
* With an integer alphabet constructBWTRuns reports one run whatever the text, because its `auto` variables are references to the same cell of an
  sdsl::int_vector; no one-symbol pattern is located correctly by RIndex, SrIndex, its variants and RCSAWithPsiRun, none but the last symbol by
  RCSAWithBWTRun, SrCSASlim cannot be constructed, and symbols of patterns lose all but their lowest eight bits (C58). The run heads are bytes, so more than 256 distinct integers do not
  fit either; nor do `RankOfChar` (tools.h:165, an `unsigned char` argument), `PsiCoreRLE` (psi.h:51, `TChar = uint8_t`) and the patterns,
  which are strings of bytes.
* RLEString over a std::string with bytes from 128 on, over references into an sdsl::int_vector, or over symbols from 256 on (C59).
* One factory (or any one storage) for both RIndex and the psi-run family: the two use one key for different items (C60).
* base64_encode has no end for strings of 2^32 bytes or more; base64_decode accepts texts that are not base64 (C61).
* The construction benchmark of the sub-sampled psi-run classes reads the number of samples from a file that only other classes write (C64).
* The items builder: a file with byte 255 or an empty file faults; byte 1 is counted once too often because the terminator becomes 1 in the run-length
  BWT; byte 0 becomes 2; the r-index of benchmark/factory.h starts at the last row of the suffix array, not at the end of the interval; stopped inside the
  sampling loops after rate 16, later runs fault or skip the missing files; a changed data file, or a BWT left by the library, is taken for its own (C65).
* plot_marks.py asks for a file that the SR-index classes do not write; the tool exports an empty file instead, which makes the script fail for ever (C66).
* A Config takes names for the files of the cache, but only some are honoured: psi, the alphabet, the BWT and its runs are written under fixed names and
  read by the classes over the runs of psi under the configured ones; with other names (or `Config()`, which has none) construction or load fails for
  every text (C67). The default names are those of 8-bit texts (`createDefaultKeys<8>`), while texts of integers store their BWT as `bwt_int`, so a
  configuration for integers needs its own names.
* Index objects of the sub-sampled classes made without a rate report rate 1, are built at rate 1 and can never be loaded from a cache (C68).
* construct or load(config) of an object that already holds an index leaves it as it is, also for another text (C69).
* the node of an index in a structure tree has size 0: no serialize of an index class calls add_size (C70).
* two indexes filed below one node and under one name share their node when class_name cannot tell their classes apart: SrCSAValidMark over SrCSA
  and over SrCSASlim, SrCSAValidArea over the two (C70, `c70_two_indexes`).
* Sparse vectors built from a bit vector have size 0 (C42); streams and copies of them (C46, C47).
* Copies that outlive their source (C47).
* `GetLastValue`'s result is dropped by RIndexBase (C50).
* plot_queries.py gives a curve the label, marker and colour of a line of the file of indexes, but numbers the curves by the order in which the
  indexes first occur in the results (C81): with another order, or with an index of the file that has no results, curves carry the name of
  another index (`c81_curves_violation`) or the script ends with an IndexError (`c81_curves_missing`). The table written beside is right.
* build_bm.sh and run_bm.sh change the directory before they use their arguments (C83): with relative directories no run is given the files of
  its collection (`c83_build_violation`, `c83_run_violation`), and over an empty directory the program runs on a collection named `*`
  (`c83_build_empty_violation`).
* SrIndexValidArea distrusts the position of a removed mark (C78): the area is the distance to that mark and is refused when it is at most the
  distance of the value, but the mark that precedes a position is looked for strictly before it, so there the value is right. Locate walks
  further than it must; its answers are not affected. The legacy builder of the same file stores the distance plus one.

## Axioms of each theorem

From `collectAxioms` over the theorems in MANIFEST.json. No theorem uses an axiom outside `propext`, `Quot.sound`, `Classical.choice`.

* No axiom: `c42_empty`.
* `propext` only: `c42_bit_vector_violation`, `c46_sparse_violation`, `c52_width`, `c53_indexes`, `c54_names`.
* `propext`, `Quot.sound`: `c28_no_set_bit`, `c40_construct_violation`, `c40_computeBWT_violation`, `c40_computeBWT_partial`, `c40_links_partial`, `c40_split_partial`, `c46_pair_order_violation`, `c46_rle_string`, `c46_rle_string_again`, `c46_psi`, `c46_psi_bv`, `c46_sparse_partial`, `c46_legacy_empty`, `c47_rle_string`, `c47_sparse_assign`, `c47_sparse_violation`, `c47_psi_bv_violation`, `c48_stream`, `c57_structures`, `c57_legacy_rle_string`, `c57_pair_order`, `c59_large_symbol_violation`, `c59_negative_char_violation`, `c59_reference_violation`, `c61_round_trip`, `c61_accepts`, `c61_reencode`, `c61_concatenation`, `c61_refuses_violation`, `c62_lines`, `c63_micro`, `c65_empty_file_violation`, `c65_foreign_bwt_violation`, `c66_words`, `c72_bound_sharp`, `c82_suffix_array`.
* `propext`, `Quot.sound`, `Classical.choice`: all the others (446).

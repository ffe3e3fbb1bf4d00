{"id": "C01", "title": "Count is exact", "statement": "For an index built on a text, Count(P) returns a half-open range [a,b) with b-a equal to the number of positions of the text at which P occurs; the range is empty when P does not occur. P is any non-empty pattern all of whose characters occur in the text.", "quantifier": "every text without NUL bytes, every non-empty pattern over the characters of the text", "why_tests_cant": "texts and patterns are unbounded; the tests use one or two literal texts", "anchors": ["include/sr-index/index_base.h: RIndexBase::Count", "include/sr-index/lf.h: LF", "include/sr-index/r_index.h: constructLF", "include/sr-index/r_csa.h: constructLF"]}
{"id": "C02", "title": "Count range is the suffix-array interval", "statement": "The range returned by Count(P) is exactly the set of suffix-array positions whose suffix starts with P (so ranges of different patterns are nested or disjoint as the patterns are).", "quantifier": "every text, every non-empty pattern over the characters of the text, every suffix-array position", "why_tests_cant": "quantifies over all texts, patterns and positions", "anchors": ["include/sr-index/index_base.h: RIndexBase::Count", "include/sr-index/lf.h"]}
{"id": "C03", "title": "RIndex::Locate is exact", "statement": "RIndex::Locate(P) returns every starting position of P in the text exactly once and nothing else, and performs no out-of-range access.", "quantifier": "every text without NUL bytes and every non-empty pattern over the characters of the text", "why_tests_cant": "the toehold and phi chain depend on the run structure of an arbitrary text", "anchors": ["include/sr-index/r_index.h: RIndex", "include/sr-index/phi.h: PhiBackward", "include/sr-index/toehold.h: ComputeToehold", "include/sr-index/index_base.h: RIndexBase::Locate"]}
{"id": "C04", "title": "RCSAWithBWTRun::Locate is exact", "statement": "RCSAWithBWTRun::Locate(P) returns every starting position of P exactly once and nothing else.", "quantifier": "every text without NUL bytes and every non-empty pattern over the characters of the text", "why_tests_cant": "unbounded texts and patterns", "anchors": ["include/sr-index/r_csa.h: RCSAWithBWTRun", "include/sr-index/phi.h: PhiForward", "include/sr-index/psi.h: PsiCoreRLE"]}
{"id": "C05", "title": "RCSAWithPsiRun::Locate is exact", "statement": "RCSAWithPsiRun::Locate(P) returns every starting position of P exactly once and nothing else.", "quantifier": "every text without NUL bytes and every non-empty pattern over the characters of the text", "why_tests_cant": "unbounded texts and patterns", "anchors": ["include/sr-index/r_csa.h: RCSAWithPsiRun", "include/sr-index/phi.h: PhiForward", "include/sr-index/psi.h: RunOps"]}
{"id": "C06", "title": "SrIndex::Locate is exact for every sampling rate", "statement": "SrIndex(s)::Locate(P) returns every starting position of P exactly once and nothing else, whatever the subsampling rate s.", "quantifier": "every text, every non-empty pattern over its characters, every rate s >= 1", "why_tests_cant": "the tests use s=6 on one text; the subsampled traversal depends on which samples happen to be dropped", "anchors": ["include/sr-index/sr_index.h: SrIndex", "include/sr-index/phi.h: PhiBackwardForRange", "include/sr-index/sampling.h: computeSampling"]}
{"id": "C07", "title": "SrIndexValidMark::Locate is exact for every sampling rate", "statement": "SrIndexValidMark(s)::Locate(P) returns every starting position of P exactly once and nothing else.", "quantifier": "every text, every non-empty pattern over its characters, every rate s >= 1", "why_tests_cant": "validity bits are data dependent", "anchors": ["include/sr-index/sr_index.h: SrIndexValidMark", "include/sr-index/phi.h: PhiBackwardForRangeWithValidity"]}
{"id": "C08", "title": "SrIndexValidArea::Locate is exact for every sampling rate", "statement": "SrIndexValidArea(s)::Locate(P) returns every starting position of P exactly once and nothing else.", "quantifier": "every text, every non-empty pattern over its characters, every rate s >= 1", "why_tests_cant": "valid areas are data dependent", "anchors": ["include/sr-index/sr_index.h: SrIndexValidArea", "include/sr-index/tools.h: SampleValidator"]}
{"id": "C09", "title": "SrCSA / SrCSASlim::Locate are exact for every sampling rate", "statement": "SrCSA(s)::Locate(P) and SrCSASlim(s)::Locate(P) return every starting position of P exactly once and nothing else.", "quantifier": "every text, every non-empty pattern over its characters, every rate s >= 1", "why_tests_cant": "unbounded texts, patterns and rates", "anchors": ["include/sr-index/sr_csa.h: SrCSA", "include/sr-index/sr_csa.h: SrCSASlim", "include/sr-index/phi.h: PhiForwardForRange"]}
{"id": "C10", "title": "SrCSAValidMark / SrCSAValidArea::Locate are exact for every sampling rate", "statement": "The validity-aware SrCSA indexes return every starting position of P exactly once and nothing else.", "quantifier": "every text, every non-empty pattern over its characters, every rate s >= 1", "why_tests_cant": "unbounded texts, patterns and rates", "anchors": ["include/sr-index/sr_csa.h: SrCSAValidMark", "include/sr-index/sr_csa.h: SrCSAValidArea", "include/sr-index/phi.h: PhiForwardForRangeWithValidity"]}
{"id": "C11", "title": "SrCSAWithPsiRun::Locate is exact for every sampling rate", "statement": "SrCSAWithPsiRun(s)::Locate(P) returns every starting position of P exactly once and nothing else.", "quantifier": "every text, every non-empty pattern over its characters, every rate s >= 1", "why_tests_cant": "unbounded texts, patterns and rates", "anchors": ["include/sr-index/sr_csa_psi.h: SrCSAWithPsiRun"]}
{"id": "C12", "title": "SRCSAValidMark / SRCSAValidArea::Locate are exact for every sampling rate", "statement": "The validity-aware psi-run indexes return every starting position of P exactly once and nothing else.", "quantifier": "every text, every non-empty pattern over its characters, every rate s >= 1", "why_tests_cant": "unbounded texts, patterns and rates", "anchors": ["include/sr-index/sr_csa_psi.h: SRCSAValidMark", "include/sr-index/sr_csa_psi.h: SRCSAValidArea"]}
{"id": "C13", "title": "All index types agree", "statement": "For the same text and pattern every index type, at every subsampling rate, reports the same multiset of positions and a Count range of the same width as Locate's result.", "quantifier": "every text, pattern over its characters, pair of index types and pair of rates", "why_tests_cant": "cross product of types, rates, texts and patterns", "anchors": ["include/sr-index/r_index.h", "include/sr-index/sr_index.h", "include/sr-index/r_csa.h", "include/sr-index/sr_csa.h", "include/sr-index/sr_csa_psi.h"]}
{"id": "C14", "title": "A character that is not in the text yields no occurrence", "statement": "Count and Locate of a pattern containing a character that does not occur in the text report no occurrence.", "quantifier": "every text and every pattern with at least one absent character", "why_tests_cant": "all texts and absent characters; the tests never query an absent character", "anchors": ["include/sr-index/r_index.h: constructGetSymbol", "include/sr-index/r_csa.h: constructGetSymbol"]}
{"id": "C15", "title": "The empty pattern", "statement": "Count of the empty pattern covers every suffix-array position, and Locate of the empty pattern returns every text position exactly once.", "quantifier": "every text", "why_tests_cant": "all texts; never queried by the tests", "anchors": ["include/sr-index/index_base.h: RIndexBase::Locate", "include/sr-index/r_index.h: constructComputeToehold"]}
{"id": "C16", "title": "Phi backward", "statement": "The backward phi function of the full r-index maps the text position SA[i] to SA[i-1], for every suffix-array position i > 0.", "quantifier": "every text, every suffix-array position i > 0", "why_tests_cant": "all texts and positions", "anchors": ["include/sr-index/phi.h: PhiBackward", "include/sr-index/phi.h: GetSampleForPhi", "include/sr-index/construct.h: constructMarkToSampleLinksForPhiBackward"]}
{"id": "C17", "title": "Phi forward", "statement": "The forward phi function of the full r-CSA maps the text position SA[i] to SA[i+1], for every suffix-array position i < n-1, with both the BWT-run and the psi-run arrangement of its samples.", "quantifier": "every text, every suffix-array position i < n-1", "why_tests_cant": "all texts and positions", "anchors": ["include/sr-index/phi.h: PhiForward", "include/sr-index/construct.h: constructMarkToSampleLinksForPhiForwardWithBWTRuns", "include/sr-index/construct.h: constructMarkToSampleLinksForPhiForwardWithPsiRuns"]}
{"id": "C18", "title": "Toehold", "statement": "After a backward search that ends in a non-empty range, the toehold computed from the recorded step is the text position stored at the last (backward indexes) or first (forward indexes) suffix-array position of the range.", "quantifier": "every text, every pattern that occurs", "why_tests_cant": "all texts and search histories", "anchors": ["include/sr-index/toehold.h: ComputeDataBackwardSearchStep", "include/sr-index/toehold.h: ComputeToehold", "include/sr-index/tools.h: ComputeSAValue"]}
{"id": "C19", "title": "Sampling gap and retention", "statement": "computeSampling keeps the first and the last sample and all required samples, keeps the input order, and every dropped sample lies between two consecutively kept samples whose text positions differ by at most s; a gap larger than s between kept samples contains no dropped sample.", "quantifier": "every sorted sequence of text positions, every list of required samples, every s >= 1", "why_tests_cant": "all sequences and rates", "anchors": ["include/sr-index/sampling.h: computeSampling", "include/sr-index/sampling.h: computeSortedSampling"]}
{"id": "C20", "title": "A subsampled mark declared valid is safe", "statement": "When a mark is declared valid, or the distance to it is inside its valid area, applying phi through the subsampled marks and samples gives the same answer as through the full set.", "quantifier": "every text, rate and text position", "why_tests_cant": "depends on the removed marks of an arbitrary text", "anchors": ["include/sr-index/construct.h: computeSubmarksValidity", "include/sr-index/tools.h: SampleValidator"]}
{"id": "C21", "title": "RLEString represents its sequence", "statement": "For every sequence and block size, RLEString's operator[], rank, select and size return what the same operations return on the plain sequence.", "quantifier": "every sequence, block size b >= 1, position, symbol and rank in range", "why_tests_cant": "all sequences and block sizes", "anchors": ["include/sr-index/rle_string.hpp: RLEString"]}
{"id": "C22", "title": "RLEString run queries", "statement": "selectOnRuns, the run information reported by rank, rankSoftRun and splitInRuns describe exactly the maximal runs of equal symbols of the sequence; splitInRuns of a range lists the runs meeting it, in order and without gaps.", "quantifier": "every sequence, block size and range", "why_tests_cant": "all sequences", "anchors": ["include/sr-index/rle_string.hpp: RLEString::splitInRuns", "include/sr-index/rle_string.hpp: RLEString::rank"]}
{"id": "C23", "title": "PsiCoreRLE represents psi", "statement": "PsiCoreRLE built from psi answers select (the psi values of a symbol) and rank (number of psi values of a symbol below a position) exactly, for every even psi sampling period.", "quantifier": "every text, symbol, position and even sampling period (the default is 64; odd periods break the layout)", "why_tests_cant": "all texts", "anchors": ["include/sr-index/psi.h: PsiCoreRLE::select", "include/sr-index/psi.h: PsiCoreRLE::rank"]}
{"id": "C24", "title": "PsiCoreRLE run queries", "statement": "rankRun counts the BWT runs starting before a position; splitInRuns partitions a range of BWT positions into the maximal runs meeting it; computeForwardRuns maps a range of symbol ranks to the psi runs it covers.", "quantifier": "every text and range", "why_tests_cant": "all texts and ranges", "anchors": ["include/sr-index/psi.h: PsiCoreRLE::splitInRuns", "include/sr-index/psi.h: PsiCoreRLE::rankRun", "include/sr-index/psi.h: PsiCoreRLE::computeForwardRuns"]}
{"id": "C25", "title": "PsiCoreBV represents psi", "statement": "PsiCoreBV built from psi answers select and rank exactly and reports the first symbol of the BWT.", "quantifier": "every text, symbol, position", "why_tests_cant": "all texts", "anchors": ["include/sr-index/psi.h: PsiCoreBV"]}
{"id": "C26", "title": "psi and LF are inverse permutations", "statement": "The psi built from the BWT is a permutation of the suffix-array positions, satisfies SA[psi(i)] = SA[i]+1 (mod n), is the inverse of LF, and increases within each symbol's block.", "quantifier": "every text, every position", "why_tests_cant": "all texts", "anchors": ["include/sr-index/psi.h: constructPsi", "include/sr-index/psi.h: Psi", "include/sr-index/lf.h: LF"]}
{"id": "C27", "title": "BWT and its run samples are what the construction reports", "statement": "The construction reports the BWT symbol of each suffix-array position once and in order, and reports as run heads/tails exactly the positions where the symbol changes, with the text position of the preceding character.", "quantifier": "every text, both construction paths", "why_tests_cant": "all texts", "anchors": ["include/sr-index/bwt.h: computeBWT", "include/sr-index/construct_sdsl.h: constructBWTRuns"]}
{"id": "C28", "title": "Circular predecessor and soft successor", "statement": "On a bit vector with at least one set bit the circular predecessor returns the greatest set position strictly smaller than the query and its order, wrapping to the last one; the soft successor returns the smallest set position greater or equal, wrapping to the first one. With no set bit they divide by zero.", "quantifier": "every bit vector and query position", "why_tests_cant": "all bit vectors", "anchors": ["include/sr-index/sequence_ops.h: CircularPredecessor", "include/sr-index/sequence_ops.h: CircularSoftSuccessor"]}
{"id": "C29", "title": "Elias-delta coded vectors round-trip", "statement": "Encoding a sequence with the elias-delta coder and decoding it gives the sequence back, and enc_vector's operator[] returns the value stored at each index for every sampling density.", "quantifier": "every sequence of 64-bit values, every density, every index", "why_tests_cant": "all sequences", "anchors": ["include/sr-index/coder.h: elias_delta", "include/sr-index/enc_vector.hpp: enc_vector"]}
{"id": "C30", "title": "serialize then load is the identity on behaviour", "statement": "Loading, into a fresh index object of the same type with empty storage, the bytes written by serialize gives an index whose Count and Locate answers equal those of the original.", "quantifier": "every index type, every text, every rate", "why_tests_cant": "all texts and rates; the tests check one text at one rate", "anchors": ["include/sr-index/r_index.h: serialize", "include/sr-index/sr_index.h: serialize", "include/sr-index/index_base.h: serializeItem", "include/sr-index/sr_csa.h", "include/sr-index/sr_csa_psi.h"]}
{"id": "C31", "title": "load replaces the contents of the index", "statement": "After load(in) an index answers as the index that was serialized to in, regardless of what it held before.", "quantifier": "every history of constructions and loads on one object or shared storage", "why_tests_cant": "all histories", "anchors": ["include/sr-index/index_base.h: loadRawItem", "include/sr-index/index_base.h: IndexBaseWithExternalStorage"]}
{"id": "C32", "title": "Indexes sharing a storage do not interfere", "statement": "Building or loading several indexes on one shared storage gives each index the same answers as with a private storage.", "quantifier": "every sequence of constructions on one shared storage", "why_tests_cant": "all histories of operations", "anchors": ["include/sr-index/index_base.h: set", "include/sr-index/index_base.h: get", "include/sr-index/config.h"]}
{"id": "C33", "title": "Rate-specific items never collide", "statement": "The cache/storage keys of rate-specific items of two different subsampling rates are different, so indexes of different rates in one cache or storage never read each other's items.", "quantifier": "every pair of rates", "why_tests_cant": "all pairs of rates and keys", "anchors": ["include/sr-index/sr_index.h: SrIndex (key_prefix)", "include/sr-index/sr_csa.h", "include/sr-index/sr_csa_psi.h"]}
{"id": "C34", "title": "Construction can be resumed after a crash", "statement": "If construction is interrupted at any point and started again on the same cache, the finished index equals the index of an uninterrupted construction.", "quantifier": "every crash point of every construction step", "why_tests_cant": "all crash points", "anchors": ["include/sr-index/r_index.h: construct", "include/sr-index/sr_index.h: constructSRI", "include/sr-index/construct_sdsl.h", "include/sr-index/sr_csa_psi.h: constructItems"]}
{"id": "C35", "title": "Text preparation", "statement": "constructText stores the input bytes followed by exactly one terminating zero, leaves an already terminated input unchanged, and rejects an input with an inner zero byte.", "quantifier": "every byte string", "why_tests_cant": "all inputs", "anchors": ["include/sr-index/construct_sdsl.h: constructText"]}
{"id": "C36", "title": "Big-BWT output is read faithfully", "statement": "The BWT built from the Big-BWT tool's output files equals the byte sequence those files hold, and the run positions equal those computed from the suffix array.", "quantifier": "every BWT byte sequence", "why_tests_cant": "all byte sequences; the tests use texts without white space", "anchors": ["include/sr-index/construct_big_bwt.h: constructBWT", "include/sr-index/construct_big_bwt.h: constructBWTRuns"]}
{"id": "C37", "title": "Backward search stops and loops terminate", "statement": "Count and Locate terminate for every pattern; Locate reports exactly b-a values for the range [a,b) found.", "quantifier": "every text and every pattern over its characters", "why_tests_cant": "termination cannot be tested", "anchors": ["include/sr-index/phi.h: ComputeAllValuesWithPhi", "include/sr-index/phi.h: PhiBackwardForRange", "include/sr-index/tools.h: ComputeSAValue"]}
{"id": "C38", "title": "computeLF on inclusive ranges agrees with backward search", "statement": "The inclusive-range LF (bwt.h) returns the suffix-array interval of cP given that of P when it is non-empty and the canonical empty range {1,0} otherwise.", "quantifier": "every text, every pattern, every character other than the terminator", "why_tests_cant": "all texts", "anchors": ["include/sr-index/bwt.h: computeLF", "include/sr-index/bwt.h: LFOnBWT"]}
{"id": "C39", "title": "Order of reported positions", "statement": "Backward indexes report the positions of the range from the last suffix-array position to the first where no subsampling is used; forward indexes report them from the first to the last.", "quantifier": "every text, every pattern", "why_tests_cant": "all texts", "anchors": ["include/sr-index/phi.h: ComputeAllValuesWithPhi"]}
{"id": "C40", "title": "Large texts", "statement": "Construction is well defined for every text size that fits the 64-bit position type.", "quantifier": "every text size", "why_tests_cant": "cannot build multi-gigabyte texts in a unit test", "anchors": ["include/sr-index/construct_sdsl.h: constructBWTRuns", "include/sr-index/bwt.h: computeBWT", "include/sr-index/sr_index.h"]}
{"id": "C41", "title": "rle_string (legacy) represents its sequence", "statement": "For every non-empty sequence over non-zero bytes and every positive block size, rle_string's size, number_of_runs, operator[], toString, rank, select, run_of_position, get_run_of, run_at, run_range, break_range, break_in_runs and closest_run_break agree with the plain sequence; the constructor rejects every other sequence.", "quantifier": "every sequence, block size, position, symbol", "why_tests_cant": "all sequences", "anchors": ["include/sr-index/rle_string.hpp: rle_string"]}
{"id": "C42", "title": "huff_string and sparse bit vectors represent their sequence", "statement": "huff_string and the sparse bit vectors answer access, rank, select and predecessor queries as the plain sequence does.", "quantifier": "every sequence and query in range", "why_tests_cant": "all sequences", "anchors": ["include/sr-index/huff_string.hpp", "include/sr-index/sparse_sd_vector.hpp", "include/sr-index/sparse_hyb_vector.hpp"]}
{"id": "C43", "title": "Generic storage keeps the first value of a key", "statement": "set on a generic storage stores a value only when the key is absent and returns the stored value; get returns the stored value exactly when the key holds a value of the requested type.", "quantifier": "every history of set/get operations", "why_tests_cant": "all histories", "anchors": ["include/sr-index/index_base.h: set", "include/sr-index/index_base.h: get"]}
{"id": "C44", "title": "Index answers do not depend on query history", "statement": "Answers of Count and Locate depend only on the index and the pattern: any interleaving of earlier queries leaves them unchanged.", "quantifier": "every sequence of queries", "why_tests_cant": "all histories", "anchors": ["include/sr-index/index_base.h: RIndexBase"]}
{"id": "C45", "title": "Data sets in one directory do not disturb each other", "statement": "Indexes of different data sets can be constructed with the same output directory, one after the other or by processes running at the same time, with crashes and restarts. Each construction completes, and each index constructed loads from then on and answers for its own data set.", "quantifier": "every number of data sets, all contents, all file names, every interleaving of the processes down to the single store, every index type and rate", "why_tests_cant": "all interleavings, and all pairs of file names: caches are told apart by names only", "anchors": ["include/sr-index/config.h: Config", "include/sr-index/io.h: store_to_cache", "include/sr-index/construct_sdsl.h: constructIndexBaseItems", "include/sr-index/construct_base.h: keys"]}
{"id": "C46", "title": "Data structures come back from their streams", "statement": "For every data structure of the library (RLEString, rle_string, sparse vectors, PsiCoreRLE, PsiCoreBV, and the indexes made of them), load reads from what serialize wrote exactly those bytes, and the object loaded answers every query as the one written.", "quantifier": "every sequence, block size, density, bit-vector type, text and rate; every object (new or used) that is loaded into; every continuation of the stream; repeated round trips", "why_tests_cant": "all contents, all previous states of the object loaded into, and everything that may follow in the stream", "anchors": ["include/sr-index/rle_string.hpp: RLEString::serialize, load", "include/sr-index/rle_string.hpp: rle_string::serialize, load", "include/sr-index/sparse_sd_vector.hpp: serialize, load", "include/sr-index/psi.h: PsiCoreRLE::serialize, load, PsiCoreBV::serialize, load", "include/sr-index/enc_vector.hpp: serialize, load", "include/sr-index/io.h"]}
{"id": "C47", "title": "Copies do not depend on their source", "statement": "A copy of a data structure or of an index, made by copying, moving or assigning, gives the same answers as its source did, also after the source has been changed or destroyed.", "quantifier": "every content, every way the source came about, and every later state of the source", "why_tests_cant": "a copy that still points into its source usually answers correctly as long as the source's memory is intact", "anchors": ["include/sr-index/rle_string.hpp: RLEString::BitVector", "include/sr-index/rle_string.hpp: rle_string", "include/sr-index/sparse_sd_vector.hpp: operator=", "include/sr-index/psi.h: PsiCoreBV", "include/sr-index/index_base.h: IndexBaseWithExternalStorage"]}
{"id": "C48", "title": "CSARaw answers from the suffix array it keeps", "statement": "CSARaw, loaded from the files of a construction, counts and locates exactly: Count gives the suffix-array interval of the pattern, Locate the occurrences of the pattern, each once, in suffix-array order; Locate of the empty pattern lists the whole suffix array; a stream it wrote loads back as the same index.", "quantifier": "every text and every non-empty pattern over its characters; the empty pattern; every stream continuation", "why_tests_cant": "all texts and patterns; the order of the values is fixed by the suffix array of each text", "anchors": ["include/sr-index/r_csa.h: CSARaw", "benchmark/sr-csa/factory.h: CSA_RAW"]}
{"id": "C49", "title": "An index over inclusive ranges answers exactly", "statement": "An index put together from the functors over inclusive ranges (LFOnBWT, the step-data and toehold functors for phi backward, the simple range reporter and the reporter with validity), rle_string, an F array and the samples, marks and links of a sub-sampled index answers Count with the first and last suffix-array position of the pattern ((1,0) if it does not occur) and Locate with exactly its occurrences, from the last suffix-array position to the first. The range reporters list any range of suffix-array positions given the entry after it; the value functor gives every suffix-array entry.", "quantifier": "every text of bytes that uses neither 1 nor 255, every sampling rate, every block size, every non-empty pattern of non-zero bytes (its characters need not occur in the text), every range", "why_tests_cant": "the recursion over runs and levels depends on the text, on where samples were kept and on the range; a test runs a handful of ranges over one text", "anchors": ["include/sr-index/bwt.h: computeLF, LFOnBWT, BasicLF", "include/sr-index/phi.h: PhiBackwardForRangeWithValidityOriginal, buildPhiForRangeSimple, buildComputeAllValuesWithPhiBackwardForRange", "include/sr-index/toehold.h: buildComputeDataBackwardSearchStepForPhiBackward, buildComputeToeholdForPhiBackward, GetInitialDataBackwardSearchStep", "include/sr-index/tools.h: SplitInRuns, RankOfChar, RunOfSAPosition, GetSampleForBWTRun, GetSampleForSAPosition, buildComputeSAValueBackward", "test/phi_tests.cpp", "benchmark/factory.h"]}
{"id": "C50", "title": "The toehold of the one-sample-per-run index follows the search", "statement": "The index put together from GetLastValue and ComputeAllValuesWithPhi (one sample per BWT run) locates exactly the occurrences of the pattern: after every step of the search the value held is the suffix-array entry at the end of the range. GetLastValue reads no symbol outside the sequence.", "quantifier": "every text of bytes that uses neither 1 nor 255, every block size, every non-empty pattern of non-zero bytes", "why_tests_cant": "all texts and patterns; a pattern whose interval ends at the last suffix is answered correctly by accident", "anchors": ["include/sr-index/tools.h: GetLastValue, GetOptionalValue", "include/sr-index/phi.h: ComputeAllValuesWithPhi", "include/sr-index/index_base.h: RIndexBase::Locate", "benchmark/factory.h"]}
{"id": "C51", "title": "Every query is answered, whatever characters the pattern has", "statement": "Count of any pattern, and Locate of any non-empty pattern that is not longer than the text or has no occurrence in the sense below, end without fault. Count reports the suffix-array interval of the positions at which the pattern is read when the text is read as a circle and every character of the pattern that is not in the text is replaced by the terminator; Locate lists the entries of that interval, in the order of the index type.", "quantifier": "every text, every index type and rate, and every pattern over all characters, present in the text or not", "why_tests_cant": "all patterns over all characters, including absent ones and ones that run over the end of the text; the tests query only patterns taken from the text", "anchors": ["include/sr-index/index_base.h: RIndexBase::Count, RIndexBase::Locate", "include/sr-index/r_index.h: constructGetSymbol, constructLF", "include/sr-index/r_csa.h: constructGetSymbol, constructLF"]}
{"id": "C52", "title": "No stored integer is cut by the width of its vector", "statement": "Every integer an index construction stores (suffix-array positions of runs, text positions, psi values and ranks, links, kept sample indices, cumulative run counts, valid marks and areas) is read back as it was written, although it is kept in a bit-packed vector whose cell width is chosen from the text size, the number of runs or the number of kept samples. The index built from those vectors therefore counts and locates exactly.", "quantifier": "every text shorter than 2^64, every sampling rate and every index type", "why_tests_cant": "a width that is one bit too small shows only on texts whose length, number of runs or number of kept samples reaches a power of two; tests run over a few sizes", "anchors": ["include/sr-index/construct_sdsl.h: constructBWTRuns", "include/sr-index/construct.h: sortIndices, constructMarkToSampleLinks, constructPsiRuns", "include/sr-index/psi.h: constructPsi, PsiCoreRLE", "include/sr-index/sr_index.h: constructSubsamplingForwardSamplesForPhiBackward, constructSubsamplingForwardMarksValidity", "include/sr-index/sr_csa.h: constructSamplesSortedByAlphabet, constructSubsamplingBackwardSamplesSortedByAlphabet", "include/sr-index/sr_csa_psi.h: constructCumulativeCountsWithPsiRuns, constructSubmarksValidity"]}
{"id": "C53", "title": "One step of the backward search is exact", "statement": "Given a range of suffix-array positions and a character of the text, the LF functor returns exactly the range of the suffixes that start one character before a suffix of the given range and begin with that character; it is defined for every range with ends up to the text size, an empty range gives an empty range, and repeated from the whole range it reaches the suffix-array interval of the pattern, whichever of the three structures (run-length BWT, run-length Psi, bit-vector Psi) it ranks with.", "quantifier": "every text shorter than 2^64, every range, every character of the text, the three rank structures", "why_tests_cant": "all texts, ranges and characters; tests check a few ranges of one text", "anchors": ["include/sr-index/lf.h: LFOnPsi, LFOnBWT, LF", "include/sr-index/tools.h: RandomAccess", "include/sr-index/r_index.h: constructLF", "include/sr-index/r_csa.h: constructLF"]}
{"id": "C54", "title": "The choice of the suffix-array algorithm does not matter", "statement": "Whichever of the accepted algorithm names a construction is given, and whichever algorithms earlier constructions of the same data with the same cache used, the construction completes and leaves an index that loads and answers as the one built with the default algorithm.", "quantifier": "every data file, every history of constructions with any algorithm, index type and rate, in one or several processes, and any directory for the cache", "why_tests_cant": "histories of constructions mix algorithms, index types, cache directories and interrupted runs; a test starts from an empty directory with no files of the tool", "anchors": ["include/sr-index/config.h: SAAlgo, toSAAlgo, Config", "include/sr-index/construct.h: constructIndexBaseItems", "include/sr-index/construct_big_bwt.h: constructBWT, constructBWTRuns, constructIndexBaseItems", "include/sr-index/construct_sdsl.h: constructIndexBaseItems"]}
{"id": "C55", "title": "The sampling rate bounds the space", "statement": "A sub-sampled index built with rate s over a text of n symbols keeps at most 2(n-1)/(s+1)+4 samples and never more than the runs of the BWT; it holds exactly as many marks, links and marked runs as samples, one validity bit per mark, and one area per mark whose bit is cleared (neither in the types without validity information). With a rate of at most one it keeps the sample of every run, and an index that is not sub-sampled always does.", "quantifier": "every text shorter than 2^64 symbols, every rate, every index type", "why_tests_cant": "the number of samples kept depends on how the run ends are spread over the text; a test measures one text at a few rates", "anchors": ["include/sr-index/sampling.h: computeSampling", "include/sr-index/sr_index.h: constructSubsamplingForwardSamplesForPhiBackward, loadAllItems", "include/sr-index/sr_csa.h: constructSubsamplingBackwardSamplesSortedByAlphabet, loadAllItems"]}
{"id": "C56", "title": "The rate bounds the work of Locate", "statement": "For every pattern, Locate answers after a number of calls of the index's parts (backward-search steps, phi, sample look-ups, navigation steps, splits with the runs they report) that depends on the text only through the number occ of occurrences: at most |P| if there is none; at most |P| + occ + 1 in RIndex and the r-CSAs; at most |P| + (4s+7) occ in every sub-sampled index with rate s.", "quantifier": "every text shorter than 2^64 symbols, every rate, every index type, every non-empty pattern over the characters of the text", "why_tests_cant": "a timing on one text and pattern says nothing about the worst one: a traversal that missed the samples would only be slow on texts whose run ends lie badly", "anchors": ["include/sr-index/phi.h: PhiBackwardForRange, PhiForwardForRange, PhiBackwardForRangeWithValidity, PhiForwardForRangeWithValidity", "include/sr-index/tools.h: ComputeSAValue", "include/sr-index/index_base.h: Locate"]}
{"id": "C57", "title": "serialize returns the number of bytes it writes", "statement": "serialize(out) of every index and every data structure returns exactly the number of bytes it has written to out, also when items of the index are missing; load(in) of an object of the same class consumes exactly that many. rle_string::print_space reports that number without the three integers in front.", "quantifier": "every index type with every content of its storage and every rate; every RLEString, PsiCoreRLE, PsiCoreBV, enc_vector, sparse vector and rle_string, over sd_vector and bit_vector; given that each type of sdsl returns what it writes", "why_tests_cant": "a test compares the two numbers for a few objects; an item counted but not written, or written but not counted, shows only for the class, the bit vector type or the missing item concerned", "anchors": ["include/sr-index/index_base.h: serializeItem, serializeRank, serializeSelect", "include/sr-index/r_index.h, sr_index.h, r_csa.h, sr_csa.h, sr_csa_psi.h: serialize", "include/sr-index/rle_string.hpp: serialize, print_space", "include/sr-index/psi.h, enc_vector.hpp, sparse_sd_vector.hpp, io.h: serialize"]}
{"id": "C58", "title": "Texts of integers", "statement": "An index of any class instantiated for integer alphabets (t_width = 0) over a text of integers answers Count and Locate exactly, as one over bytes does.", "quantifier": "every class, every sequence of positive integers followed by 0, every pattern over its symbols", "why_tests_cant": "no test instantiates the integer width; the two widths share their source text but `auto` copies a byte in one and binds a reference in the other, so tests of the byte width say nothing about the other", "anchors": ["include/sr-index/construct_sdsl.h: constructBWTRuns, constructIndexBaseItems", "include/sr-index/construct_base.h: constructBWTRLE", "include/sr-index/alphabet.h: alphabet_trait", "include/sr-index/r_index.h: constructRIndex", "include/sr-index/r_index.h: constructGetSymbol", "include/sr-index/r_csa.h: constructGetSymbol", "include/sr-index/sr_index.h: constructSRI", "include/sr-index/sr_csa.h: construct"]}
{"id": "C59", "title": "RLEString accepts every kind of sequence", "statement": "An RLEString built from a pair of iterators represents the sequence between them, and leaves that sequence unchanged, whatever the type of the elements: characters of a std::string, integers of an sdsl::int_vector, integers of any size.", "quantifier": "every non-empty sequence, every block size, the element types char, byte, integer by value and integer by reference", "why_tests_cant": "the tests use small positive values in containers whose iterators return plain references; the effect of a wider, negative or proxied element is not seen there", "anchors": ["include/sr-index/rle_string.hpp: RLEString (constructor, constructRunHeads)"]}
{"id": "C60", "title": "The benchmark factories hand out the index asked for", "statement": "Whatever sequence of requests (index type and sampling rate) is made to a factory over a data directory with the constructed files, every request returns an index of the requested type and rate, over the requested text: its Count and Locate are exact, and the reported size is the size of the object; the reported length of the sequence is that of the text.", "quantifier": "every text over bytes ending with its terminator, every data directory holding its constructed files, every finite sequence of requests to one factory, for both factories", "why_tests_cant": "the factory keeps made indexes and shares loaded parts between types, so an answer depends on the whole history of requests; no test of the repository exercises it", "anchors": ["benchmark/sr-index/factory.h: Factory::make, Factory::Config::operator<, Factory::sizeSequence", "benchmark/sr-csa/factory.h: Factory::make, Factory::sizeSequence", "include/sr-index/index_base.h: sizeSequence", "include/sr-index/r_csa.h: CSARaw"]}
{"id": "C61", "title": "base64 texts of patterns", "statement": "The base64 text of a string is the one of RFC 4648; decoding it gives the string back, with or without padding, in both alphabets and also when cut into lines; a text that is not base64 is refused.", "quantifier": "every string of bytes of every length, both alphabets, every line length; every text given to the decoder", "why_tests_cant": "the claim ranges over all strings, including those longer than 4 GiB, and over all malformed texts", "anchors": ["benchmark/base64.h: base64_encode, base64_encode_pem, base64_encode_mime, base64_decode, pos_of_char, insert_linebreaks"]}
{"id": "C62", "title": "Reading a file of patterns", "statement": "Reading a patterns file gives exactly its non-empty lines, in order (code PLAIN), or the strings that its non-empty lines encode (code BASE64); a file of base64 texts of any strings of bytes gives these strings back. No empty pattern ever results. A file that cannot be opened, an unknown code, or a line that the decoder refuses ends the program instead.", "quantifier": "every file content, every value of the flag pattern_code, every list of strings of bytes", "why_tests_cant": "the claim is about all file contents (newlines in any place, missing final newline, empty lines, bytes of any value); the repository has no test of it", "anchors": ["benchmark/bm_locate.h: ReadPatterns, toPatternCode, Pattern"]}
{"id": "C63", "title": "Benchmark reports are determined by the text and the patterns", "statement": "For a file of patterns over the characters of the text, every run of a locate or count benchmark writes the report that the text determines: the occurrences of every pattern in increasing order, or their number and the bounds of the suffix-array interval; the counters are the size of the text, the number of patterns, the total number of occurrences and the size of the index. The report does not depend on the index type, the rate, the number of rounds or the benchmarks run before, and no two runs write to the same file. A locate program as a whole runs every index class under its own name, at every rate of the range for the classes that have one, and nothing else. The micro benchmark queries the patterns cyclically.", "quantifier": "every text, every patterns file over its characters, every sequence of benchmarks with any types, rates and numbers of rounds", "why_tests_cant": "the reports come from indexes shared between benchmarks through one factory and from loops that are repeated an unknown number of times; agreement of all index types on all inputs is not a finite check", "anchors": ["benchmark/bm_locate.h: BM_PrintLocate, BM_MacroLocate, BM_MicroLocate, UpdateCounter, RegisterLocateBenchmarks", "benchmark/bm_locate_set.h: RegisterAllLocateBenchmarks", "benchmark/sr-index/bm_count_ri.cpp: BM_QueryCount, BM_PrintQueryCount", "benchmark/sr-csa/bm_count_csa.cpp: BM_QueryCount, BM_PrintQueryCount", "benchmark/sr-index/bm_locate_ri.cpp: main", "benchmark/sr-csa/bm_locate_csa.cpp: main"]}
{"id": "C64", "title": "Construction benchmarks report true counters", "statement": "Whatever was built before in the directory and however many iterations are run, the benchmark of an index class reports the number of symbols of the text (with its end marker) and of runs of its BWT for a class without rate, and the rate and the number of samples the index really keeps for a class with one. It holds for every benchmark of the program for the SR-index classes under any filter, and for all benchmarks of the program for the SR-CSA classes without filter. (Violated for SrCSAWithPsiRun and its two refinements alone: the number of samples is read from a file that their construction does not write.)", "quantifier": "every text, every clean history of the cache directory, every class, bit-vector type, rate, list of rates, filter and number of iterations", "why_tests_cant": "the counters are read back from files left by this or by earlier constructions; which ones depends on the order of the benchmarks, on the filter and on the history of the directory", "anchors": ["benchmark/sr-index/bm_construct_ri.cpp: BM_ConstructRIndex, BM_ConstructSRI, main", "benchmark/sr-csa/bm_construct_csa.cpp: BM_ConstructRCSA, BM_ConstructSrIndex, main", "include/sr-index/construct.h: construct"]}
{"id": "C65", "title": "Items builder and locate benchmark of the inclusive-range indexes are exact", "statement": "Whatever file it is given, the items builder (bm_build_ri_items) leaves in the directory every file the locate benchmark (bm_locate) reads: text, suffix array, BWT, heads and tails of its runs with their text positions, and for each rate 4..512 the sampled lists, marks and areas. The indexes loaded from them count and locate every pattern exactly, the benchmark reports the true number of occurrences and the true lists, running the builder again changes nothing, and a builder that is stopped after any of its benchmarks and started again ends with the same files. (Proved for non-empty files without the bytes 1 and 255, for the three sub-sampled indexes, and for stops outside the sampling loops. Violated otherwise: see the _violation theorems.)", "quantifier": "every file of bytes, every number of iterations, every pattern and pattern file, every rate, every benchmark after which the builder is stopped, every directory the builder finds", "why_tests_cant": "each step reads what earlier steps (or earlier runs of the program) left; whether a step is skipped depends on which files exist, and exactness is about all texts and patterns", "anchors": ["benchmark/bm_build_ri_items.cpp: BM_BuildText .. BM_BuildBwtHeadsSampled, main", "benchmark/factory.h: Factory", "benchmark/bm_locate.cpp: BM_MacroLocate, BM_PrintLocate, main", "benchmark/definitions.h: keys"]}
{"id": "C66", "title": "Exported marks are the marks of the index", "statement": "The export tool (int_vector_to_vector) and the script that plots the marks (plot_marks.py) show, for every text and whatever was built before in the directory, exactly the text positions of the first symbols of the runs of the BWT, in ascending order, and for each rate exactly the positions that the sub-sampled index keeps: a part of them such that any position left out lies between two kept ones at most the rate apart. Running the script again gives the same. (Proved when the files of the SR-CSA classes are in the cache, e.g. after their benchmark program. Violated after the SR-index classes only: they do not write the file the script asks for, the tool then exports an empty file, and the script fails then and ever after. With --hash_type the tool overwrites the export of another file.)", "quantifier": "every text, every clean history of the cache directory, every vector of 64-bit integers, every state of the cache on later runs", "why_tests_cant": "which files the tool finds depends on the history of the directory; exactness is about all texts; the failure is silent and permanent", "anchors": ["tool/int_vector_to_vector.cpp: main", "tool/plot_marks.py: process_collection, process_data, read_data", "include/sr-index/sr_csa.h: constructItems", "include/sr-index/sr_index.h: constructItems"]}
{"id": "C67", "title": "The names in a configuration only name files", "statement": "Replacing the names that a Config holds for the files of a cache changes the files' names and nothing else: for every text, every choice of usable names, and every sequence of constructions of any classes and rates and of new processes in a directory that was empty at first, construction succeeds, and load with the same names gives an index whose count and locate are exact. With the default names everything is as with fixed names, and the classes that are not over the runs of psi ignore the names. (Proved for names that leave those of psi, the alphabet, the BWT and its runs as they are, and are otherwise different from each other and from the fixed names. Violated otherwise: with another name for psi or for the alphabet the index is built and can never be loaded; with another name for the BWT or its runs, or with no names as in Config(), construction fails; with one name for the heads and tails of psi's runs load fails.)", "quantifier": "every text, every map of names, every class, bit vector type and rate, every history of constructions and restarts", "why_tests_cant": "the tests use the default names; which code takes a name from the configuration and which uses a constant differs from step to step, and clashes depend on what else is in the directory", "anchors": ["include/sr-index/config.h: createDefaultKeys, Config", "include/sr-index/r_csa.h: RCSAWithPsiRun::setupKeyNames, constructItems", "include/sr-index/sr_csa_psi.h: setupKeyNames, constructItems", "include/sr-index/construct.h: constructPsi, constructPsiRuns"]}
{"id": "C68", "title": "construct builds and loads the index at the object's own rate", "statement": "construct(index, path, config) of a new index object builds the items of the rate the object was made with and loads them into it: for every class, rate and bit vector type, and whatever was constructed before in the directory, it succeeds, SubsampleRate() is that rate, and count and locate are exact. (Proved for objects made with a rate and for the classes without one. Violated for objects of the sub-sampled classes made without a rate: they report rate 1, construct builds the files of rate 1 and then fails to load them, since it looks for files without a rate in their names; load from the cache fails in every state.)", "quantifier": "every text, every class, bit vector type and rate, every history of constructions, restarts and clean crashes; for the failure also every crash", "why_tests_cant": "the tests construct a few classes with explicit rates in fresh directories; the failure depends on which files any history can leave", "anchors": ["include/sr-index/construct.h: construct", "include/sr-index/sr_index.h: construct, SrIndex::SrIndex", "include/sr-index/sr_csa.h: construct, SrCSABase::SrCSABase", "include/sr-index/sr_csa_psi.h: SrCSAWithPsiRun::SrCSAWithPsiRun"]}
{"id": "C69", "title": "An index object can be used for another text", "statement": "construct(index, path, config) and load(config) on an index object that was constructed before make it the index of the text asked for now: count and locate are exact for that text, whatever the object was used for before. (Proved when the text is the one it was constructed for. Violated for every other text: the right files are built, and a new object loads them, but the object itself keeps all its old items and answers for the old text, without an error.)", "quantifier": "every pair of texts, every class, bit vector type and rate, every clean history of both directories", "why_tests_cant": "the failure is silent and shows only on patterns that occur in both texts with different frequency", "anchors": ["include/sr-index/index_base.h: loadRawItem, set, get", "include/sr-index/construct.h: construct", "include/sr-index/sr_csa.h: construct"]}
{"id": "C70", "title": "The structure tree shows where the bytes of an index go", "statement": "serialize(out, v, name) of an index or of one of the library's structures adds one node under v, whose size is the number of bytes written, with children for its parts whose sizes are the bytes of those parts and add up to all of them; nothing else in the tree changes, and with v = nullptr nothing does. (Proved for the structures RLEString, enc_vector, PsiCoreRLE and PsiCoreBV, and for the children of an index. Violated by the node of every index: its size stays 0.)", "quantifier": "every class of indexes, whatever its storage holds, every structure, every tree, node and name; for the violation every text, class and rate", "why_tests_cant": "the sizes depend on every item of every class, and on how base classes share the node of an object", "anchors": ["include/sr-index/index_base.h: serializeItem, serializeRank, serializeSelect", "include/sr-index/r_index.h: RIndex::serialize", "include/sr-index/sr_index.h: serialize", "include/sr-index/r_csa.h: serialize", "include/sr-index/sr_csa.h: serialize", "include/sr-index/sr_csa_psi.h: serialize", "include/sr-index/psi.h: serialize", "include/sr-index/rle_string.hpp: RLEString::serialize", "include/sr-index/enc_vector.hpp: serialize", "include/sr-index/io.h: serialize"]}
{"id": "C71", "title": "Queries in 64-bit machine arithmetic are exact", "statement": "Count and Locate compute with std::size_t: sums, differences and products are taken modulo 2^64, and several intermediate values (such as minus the number of jumps, or the end of a range before its correction) do wrap around. The answers are nevertheless exact: Count returns the suffix-array interval of the pattern and Locate every occurrence once, and for every pattern whatsoever the answer is the one of exact arithmetic, for texts of fewer than 2^60 symbols and rates below 2^63. The three classes that count samples in an int need a text of fewer than 2^31 - 1 symbols (C40). The run-length string and the run-length representation of psi compute in the same arithmetic, and for sequences of fewer than 2^61 symbols their answers are exact too (those of C21-C24).", "quantifier": "every text and suffix array within the bounds, every class, rate and pattern", "why_tests_cant": "a wrap-around that is not undone needs texts no test can hold; the argument is a bound on every intermediate value", "anchors": ["include/sr-index/sequence_ops.h: CircularPredecessor, CircularSoftSuccessor", "include/sr-index/phi.h: PhiBackward, PhiForward, PhiBackwardForRange, PhiForwardForRange", "include/sr-index/toehold.h: ComputeToehold", "include/sr-index/tools.h: ComputeSAValue", "include/sr-index/lf.h: LF", "include/sr-index/sr_csa.h: constructSplitRunInBWTRuns, constructSplitRangeInBWTRuns", "include/sr-index/sr_index.h: constructSplitInBWTRuns", "include/sr-index/rle_string.hpp: RLEString", "include/sr-index/psi.h: PsiCoreRLE"]}
{"id": "C72", "title": "Construction in machine arithmetic is exact below 2^31 symbols", "statement": "The construction of an index computes with std::size_t, which wraps around, and with some counters declared int. For every text of fewer than 2^31 symbols, every class and every rate the items it stores are those of exact arithmetic; an index so built and queried in the same arithmetic answers Count with the suffix-array interval of the pattern and Locate with every occurrence once (rates below 2^63; the three classes that count samples in an int need a text of fewer than 2^31 - 1 symbols). The bound is sharp: with 2^31 symbols or more no class can be built without overflowing an int.", "quantifier": "every text and suffix array within the bounds, every class, rate and pattern", "why_tests_cant": "overflow needs texts no test can hold; the argument bounds every intermediate value of the construction", "anchors": ["include/sr-index/construct_sdsl.h: constructBWTRuns, constructIndexBaseItems", "include/sr-index/construct.h", "include/sr-index/sampling.h: computeSampling", "include/sr-index/psi.h: constructPsi, PsiCoreRLE", "include/sr-index/rle_string.hpp: RLEString", "include/sr-index/sr_index.h", "include/sr-index/sr_csa.h", "include/sr-index/sr_csa_psi.h"]}
{"id": "C73", "title": "From the data file to the answers of a stored index", "statement": "A program that constructs an index from a data file without zero bytes, over whatever completed constructions, clean crashes and restarts have left in the cache, gets a usable index object; serialize returns the number of bytes it writes; a fresh object of the same class and rate, in a new process, reads exactly those bytes from a stream, whatever follows them; and both objects, computing with 64-bit machine words, count and locate every pattern over the bytes of the file exactly. (With the default template arguments nothing is excluded; a plain bit vector for the samples excludes SrCSAValidMark and SrCSAValidArea over SrCSA, whose streams cannot be read back.)", "quantifier": "every data file of fewer than 2^60 bytes (2^31 - 2 for the three classes that count samples in an int), every class, every rate below 2^63, every history of the cache, every pattern, everything that may follow in the stream", "why_tests_cant": "each stage depends on all that the stages before have stored; a test follows one file, one history and one class through them", "anchors": ["include/sr-index/construct.h: construct", "include/sr-index/index_base.h: load, serialize, Count, Locate", "include/sr-index/r_index.h", "include/sr-index/sr_index.h", "include/sr-index/r_csa.h", "include/sr-index/sr_csa.h", "include/sr-index/sr_csa_psi.h"]}
{"id": "C74", "title": "A file that cannot be written does not become a wrong index", "statement": "If a file of the cache cannot be opened for writing while an index is constructed (no permission, no space, a directory in its place), then construct throws, or the index cannot be loaded afterwards (load throws), or the loaded index answers exactly; and once the file can be written, constructing again repairs the cache. A file that is written through a buffer makes construct fail. The first part holds as long as the file is not one of eight that later steps read without looking whether they are there, and each of the eight can lead to an index that counts and does not locate; if constructions that stop because a file is missing, or because the first buffer of a step cannot be opened, are followed by others, it holds as long as the file is none of twelve that are read in this way, and the eight are not enough; for four classes it is false for every text: without the file of the indices sorted by text position construct completes, and the index loads, counts, and never returns from Locate, also after a repeated construction. Repair is shown for every directory that such histories leave in which no step of the construction is skipped while something it should have written is missing; without that it is false for every text and class: when only the rank support of the marks could not be written, every step of construct completes, load throws, and no later constructions bring the index back.", "quantifier": "every data file without zero bytes, every class, rate and bit vector type, every set of files that cannot be written, every sequence of constructions that complete or stop because a file is missing or the first buffer of a step cannot be opened, and of restarts, from an empty directory, every later history of constructions, crashes and new processes, every pattern", "why_tests_cant": "a test would have to fail each of some sixty stores of each of fifteen classes at every rate, in every combination and after every history, and a failure shows only in what later steps compute from a file that is missing", "anchors": ["include/sr-index/io.h: store_to_cache", "include/sr-index/index_base.h: loadItem", "include/sr-index/construct.h", "include/sr-index/sr_index.h: constructSubsamplingForwardSamplesForPhiBackward", "include/sr-index/sr_csa.h: constructSubsamplingBackwardSamplesForPhiForwardWithBWTRuns", "include/sr-index/sr_csa_psi.h: constructSubsamplingBackwardSamplesForPhiForwardWithPsiRuns"]}
{"id": "C75", "title": "Processes that construct indexes in the same directory at the same time do not spoil each other's work", "statement": "Several processes construct indexes of the same data set in the same directory at the same time. None of them fails, and when one is done, its index loads with exact answers. This holds under every schedule in which no process begins a step while another is in the midst of writing a file that the step looks for, reads or writes (the samples and the marks of psi runs counting as one step); in particular, once the files without a rate in their names are there, for processes at pairwise different rates it holds under every schedule. Without that it is false for every text: a process that begins while another has opened the file of the text fails; and two processes that construct an index with psi runs, one of which is between the samples and the marks, with no file half written, end with a failure or with an index without marks, that counts and does not locate. Both processes may also report that they are done and leave an RIndex or an SRCSAValidArea that counts right and does not locate.", "quantifier": "every data file without zero bytes, every number of processes, every class, rate and bit vector type of each, every directory that complete constructions leave, every schedule of the moves of the processes (one look at the directory, one opening or one closing of a file each), every pattern", "why_tests_cant": "the number of interleavings of some sixty stores of two processes is astronomical, a run of two processes shows one of them, and a bad one shows only if a process looks at the directory in the moment between two system calls of another", "anchors": ["include/sr-index/construct.h", "include/sr-index/construct_base.h", "include/sr-index/construct_sdsl.h", "include/sr-index/sr_csa_psi.h: constructSubsamplingBackwardSamplesForPhiForwardWithPsiRuns, constructSubmarksForPhiForwardWithPsiRuns", "include/sr-index/r_index.h: construct", "include/sr-index/sr_index.h: construct", "include/sr-index/sr_csa.h: construct"]}
{"id": "C76", "title": "The work of Count does not depend on the length of the text", "statement": "Count answers after a number of operations on the succinct structures of the index (ranks, selects, decoded codes, samples read) that does not depend on the length of the text, on the rate or on the number of occurrences: at most 20 per character of the pattern in RIndex and the sr-indexes, and at most 2 log2(r) + 138 per character in the indexes over psi, r being the number of runs of the BWT.", "quantifier": "every text shorter than 2^64 symbols, every rate, every index type, every pattern the query answers", "why_tests_cant": "a timing on some texts says nothing about the worst one: a scan that started at the first run, a search that halved nothing or a block that was too long would give the same answers, slowly, only on texts with many runs", "anchors": ["include/sr-index/rle_string.hpp: RLEString::rank, rankSoftBothRun, computeBothRunData", "include/sr-index/psi.h: PsiCoreRLE::rank, computeUpperBound, RunOps", "include/sr-index/index_base.h: Count"]}
{"id": "C77", "title": "The work of Locate depends on the text only through its runs and its symbols", "statement": "Locate answers after a number of operations on the succinct structures of the index (ranks, selects, accesses, decoded codes, samples read) that is at most B |P| if the pattern does not occur, B (|P| + occ + 1) in the indexes that are not sub-sampled and B (|P| + (4 s + 7) occ) in those that are, with s the rate and occ the number of occurrences. B is 20 in RIndex and the sr-indexes, and (sigma + 1) (log2(r) + 69) in the indexes over psi, r being the number of runs of the BWT and sigma the number of distinct symbols of the text.", "quantifier": "every text shorter than 2^64 symbols, every rate, every index type, every pattern over symbols of the text other than the terminator", "why_tests_cant": "a timing on some texts says nothing about the worst one: a phi that walked from mark to mark, a split that started at the first run of the text or a search of the sampled ranks that halved nothing would report the same positions, slowly, only on texts with many runs", "anchors": ["include/sr-index/phi.h: PhiBackwardForRange, PhiForwardForRange, CircularPredecessor, CircularSoftSuccessor", "include/sr-index/rle_string.hpp: RLEString::splitInRuns, selectOnRuns", "include/sr-index/psi.h: PsiCoreRLE::select, rankRun, splitInSortedRuns, computeForwardRuns", "include/sr-index/index_base.h: Locate"]}
{"id": "C78", "title": "Nothing is distrusted without cause", "statement": "The validity information of a sub-sampled index is as precise as it can be. If phi goes by the same mark in the sub-sampled index as in the index that keeps every mark, the classes with validity areas declare its value valid, and otherwise not; the classes with validity marks declare a value valid exactly if no mark was removed next to the mark that phi goes by.", "quantifier": "every text, every rate, every position of the text but its last one (for the classes over psi: every position), every class with validity information", "why_tests_cant": "Locate reports the same positions if the index distrusts more than it must: it only walks further. An index that distrusts everything passes every test of its answers", "anchors": ["include/sr-index/construct.h: computeSubmarksValidity", "include/sr-index/tools.h: SampleValidatorDefault, SampleValidator", "include/sr-index/sr_index.h: constructSubsamplingForwardMarksValidity, SrIndexValidMark, SrIndexValidArea", "include/sr-index/sr_csa.h: SrCSAValidMark, SrCSAValidArea", "include/sr-index/sr_csa_psi.h: SRCSAValidMark, SRCSAValidArea"]}
{"id": "C79", "title": "A greater rate never costs more space", "statement": "Of two indexes of the same sub-sampled type over the same text, the one with the greater sampling rate holds no more samples, marks, links, sampled runs and validity bits than the other.", "quantifier": "every text shorter than 2^64 symbols, every pair of rates, every index type", "why_tests_cant": "the samples kept at a greater rate are not among those kept at a smaller one: the choice is greedy and depends on all the choices before, so that a sample more at one text and pair of rates says nothing about the others, and none about whether some text is worse", "anchors": ["include/sr-index/sampling.h: computeSampling, computeSortedSampling", "include/sr-index/sr_index.h: constructSubsamplingForwardSamplesForPhiBackward", "include/sr-index/sr_csa.h: constructSubsamplingBackwardSamplesForPhiForwardWithBWTRuns", "include/sr-index/sr_csa_psi.h: constructSubsamplingBackwardSamplesForPhiForwardWithPsiRuns"]}
{"id": "C80", "title": "At a rate of at most one a sub-sampled index is the full index", "statement": "Built with a sampling rate of one (or zero), each sub-sampled index holds the same items as the full index of its family over the same text: the same alphabet, run-length structure, samples, marks and links, the slim class in the order of the psi runs. Its validity variants then declare every mark valid and store no area, and their phi is that of the full index.", "quantifier": "every text shorter than 2^64 symbols, every sub-sampled index type, the rates 0 and 1", "why_tests_cant": "the two classes of a family compute their items along different ways (the links of the sub-sampled class go through sorted submarks, those of the full class through the tails), and a disagreement would show only where a link that differs is followed; equality on the texts tried says nothing of the next one", "anchors": ["include/sr-index/sr_index.h: constructItems, constructSubsamplingForwardSamplesForPhiBackward", "include/sr-index/sr_csa.h: construct, constructSubsamplingBackwardMarksForPhiForwardWithBWTRuns", "include/sr-index/sr_csa_psi.h: constructItems", "include/sr-index/r_index.h: constructItems", "include/sr-index/r_csa.h: constructItems"]}
{"id": "C81", "title": "The benchmark plots attribute every measurement to its index", "statement": "For each collection the plotting script writes a table with one line per result of a listed index, carrying the label of that index and its own space and time, and draws for each index asked for one curve made of exactly the measurements of that index under the label of that index.", "quantifier": "every file of indexes with distinct names, every table of results in any order, every choice of curves to show", "why_tests_cant": "the attribution depends on the order in which the indexes first occur in the results and on which of them are absent; a run over results that happen to follow the file of indexes looks right", "anchors": ["benchmark/plot_queries.py: plot_result, main"]}
{"id": "C82", "title": "An index knows the symbols of its text only by their order", "statement": "If every symbol of a text is renamed in a way that keeps the order of the symbols, the index of the renamed text, of any type and at any rate, has the same items (all but the characters of the alphabet) and answers Count and Locate of every renamed pattern exactly as the index of the original text answers the pattern: the same ranges, the same positions in the same order, also for the empty pattern and for patterns with symbols that are not in the text, and with a fault where the other has one.", "quantifier": "every text, every order-preserving renaming of its symbols, every index type, every rate, every pattern whose foreign symbols stay foreign", "why_tests_cant": "it relates the runs on two inputs, for all texts, renamings and patterns; a dependence on symbol values (a special byte, a sign, a table bound) would show only for particular values", "anchors": ["include/sr-index/construct_base.h: constructAlphabet, constructBWTRLE", "include/sr-index/index_base.h: Count, Locate", "include/sr-index/construct.h: constructPsi, constructPsiRuns", "include/sr-index/alphabet.h: Alphabet"]}
{"id": "C83", "title": "The benchmark scripts give every collection its own data", "statement": "The scripts that run the items builder and the locate benchmark over a directory of collections start the program exactly once for each visible collection, in a directory of that collection's name below the one they are started in, on the data (or the items and the patterns) of that collection, and leave the report there; they stop at the first directory that cannot be entered.", "quantifier": "every starting directory, every content of the directory of collections, absolute and relative arguments, every set of directories that cannot be entered", "why_tests_cant": "what a path argument means depends on where the script is started and on how it is written; a trial with absolute paths on two collections does not show the other cases", "anchors": ["benchmark/build_bm.sh", "benchmark/run_bm.sh"]}
{"id": "C84", "title": "The directory does not remember the order of the constructions", "statement": "However the indexes of a text are constructed in a directory - in any order, each once or several times, in one process or in several - the same set of indexes leaves the same directory, file by file. A construction never changes a file that is there. An index that has been constructed stays: constructing it again stores nothing, and loading it later gives the index of its text.", "quantifier": "every text without the symbol 0, every two sessions (lists of constructions and process restarts) that ask for the same set of index types, bit-vector kinds and rates, every earlier history of the directory with kills between steps", "why_tests_cant": "the constructions share files and skip steps whose files exist, so every pair of orders of every set of indexes and rates is another path through the steps", "anchors": ["include/sr-index/construct.h constructItems", "include/sr-index/construct_sdsl.h constructIndexBaseItems", "include/sr-index/r_index.h constructItems", "include/sr-index/sr_index.h constructItems", "include/sr-index/sr_csa.h constructItems", "include/sr-index/sr_csa_psi.h constructItems"]}
{"id": "C85", "title": "The BWT and psi take space by runs, not by symbols", "statement": "The run-length BWT of every index holds one head per run of the BWT, one block mark per two runs and one end mark per run over all symbols. The run-length psi holds two numbers per run, a sampled number and pointer per 32 runs of a symbol (and at most two pairs more per symbol), a rank per 32 runs, and at most two Elias-delta codes of the text length in bits per run. None of these numbers depends on the length of the text otherwise.", "quantifier": "every text, every sequence, every block size and every even sampling period", "why_tests_cant": "a bound on space over all texts; a test measures some texts, and a representation that sometimes stores a run twice answers every query right", "anchors": ["include/sr-index/rle_string.hpp RLEString", "include/sr-index/psi.h PsiCoreRLE", "include/sr-index/enc_vector.hpp enc_vector", "include/sr-index/construct_base.h constructBWTRLE", "include/sr-index/construct.h constructPsi"]}

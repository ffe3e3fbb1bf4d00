{"claims": [
{"property": "C01", "status": "proved", "theorems": ["Sri.c01_count", "Sri.c01_rcsabwt_count", "Sri.c01_rcsapsi_count", "Sri.c01_rindex_count", "Sri.c01_srcsa_count", "Sri.c01_srcsaslim_count", "Sri.c01_srcsamark_count", "Sri.c01_srcsaarea_count", "Sri.c01_srcsaslimmark_count", "Sri.c01_srcsaslimarea_count", "Sri.c01_srcsapsi_count", "Sri.c01_srcsapsimark_count", "Sri.c01_srcsapsiarea_count", "Sri.c01_srindex_count", "Sri.c01_validmark_count", "Sri.c01_validarea_count", "Sri.c01_end_to_end"], "note": "every index type"},
{"property": "C02", "status": "proved", "theorems": ["Sri.c02_interval", "Sri.c02_rcsabwt_interval", "Sri.c02_rcsapsi_interval", "Sri.c02_rindex_interval", "Sri.c02_srcsa_interval", "Sri.c02_srcsaslim_interval", "Sri.c02_srcsamark_interval", "Sri.c02_srcsaarea_interval", "Sri.c02_srcsaslimmark_interval", "Sri.c02_srcsaslimarea_interval", "Sri.c02_srcsapsi_interval", "Sri.c02_srcsapsimark_interval", "Sri.c02_srcsapsiarea_interval", "Sri.c02_srindex_interval", "Sri.c02_validmark_interval", "Sri.c02_validarea_interval"], "note": "every index type"},
{"property": "C03", "status": "proved", "theorems": ["Sri.c03_rindex_locate"], "note": ""},
{"property": "C04", "status": "proved", "theorems": ["Sri.c04_rcsabwt_locate"], "note": ""},
{"property": "C05", "status": "proved", "theorems": ["Sri.c05_rcsapsi_locate"], "note": ""},
{"property": "C06", "status": "proved", "theorems": ["Sri.c06_srindex_locate"], "note": ""},
{"property": "C07", "status": "proved", "theorems": ["Sri.c07_validmark_locate"], "note": ""},
{"property": "C08", "status": "proved", "theorems": ["Sri.c08_validarea_locate"], "note": ""},
{"property": "C09", "status": "proved", "theorems": ["Sri.c09_srcsa_locate", "Sri.c09_srcsaslim_locate"], "note": ""},
{"property": "C10", "status": "proved", "theorems": ["Sri.c10_srcsamark_locate", "Sri.c10_srcsaarea_locate", "Sri.c10_srcsaslimmark_locate", "Sri.c10_srcsaslimarea_locate"], "note": ""},
{"property": "C11", "status": "proved", "theorems": ["Sri.c11_srcsapsi_locate"], "note": ""},
{"property": "C12", "status": "proved", "theorems": ["Sri.c12_srcsapsimark_locate", "Sri.c12_srcsapsiarea_locate"], "note": ""},
{"property": "C13", "status": "proved", "theorems": ["Sri.c13_agree"], "note": ""},
{"property": "C14", "status": "partial", "theorems": ["Sri.c14_rindex_around", "Sri.c14_srindex_around", "Sri.c14_validmark_around", "Sri.c14_validarea_around", "Sri.c14_rcsabwt_around", "Sri.c14_rcsapsi_around", "Sri.c14_srcsa_around", "Sri.c14_srcsaslim_around", "Sri.c14_srcsapsi_around", "Sri.c14_srcsamark_around", "Sri.c14_srcsaslimmark_around", "Sri.c14_srcsapsimark_around", "Sri.c14_srcsaarea_around", "Sri.c14_srcsaslimarea_around", "Sri.c14_srcsapsiarea_around", "Sri.c14_rcsabwt_absent_violation", "Sri.c14_rcsabwt_absent_partial", "Sri.c14_rcsapsi_absent_violation", "Sri.c14_rcsapsi_absent_partial", "Sri.c14_rindex_absent_violation", "Sri.c14_rindex_absent_partial", "Sri.c14_srcsa_absent_violation", "Sri.c14_srcsa_absent_partial", "Sri.c14_srcsaslim_absent_violation", "Sri.c14_srcsaslim_absent_partial", "Sri.c14_srcsamark_absent_violation", "Sri.c14_srcsamark_absent_partial", "Sri.c14_srcsaarea_absent_violation", "Sri.c14_srcsaarea_absent_partial", "Sri.c14_srcsaslimmark_absent_violation", "Sri.c14_srcsaslimmark_absent_partial", "Sri.c14_srcsaslimarea_absent_violation", "Sri.c14_srcsaslimarea_absent_partial", "Sri.c14_srcsapsi_absent_violation", "Sri.c14_srcsapsi_absent_partial", "Sri.c14_srcsapsimark_absent_violation", "Sri.c14_srcsapsimark_absent_partial", "Sri.c14_srcsapsiarea_absent_violation", "Sri.c14_srcsapsiarea_absent_partial", "Sri.c14_srindex_absent_violation", "Sri.c14_srindex_absent_partial", "Sri.c14_validmark_absent_violation", "Sri.c14_validmark_absent_partial", "Sri.c14_validarea_absent_violation", "Sri.c14_validarea_absent_partial"], "note": "the code violates the property: the violation theorems show it for every text; the partial theorems cover patterns for which the answer is right, and the theorems c14_*_around say exactly which patterns are answered wrongly, and how, for every pattern"},
{"property": "C15", "status": "partial", "theorems": ["Sri.c15_srcsamark_locate_empty_partial", "Sri.c15_srcsaarea_locate_empty_partial", "Sri.c15_srcsaslimmark_locate_empty_partial", "Sri.c15_srcsaslimarea_locate_empty_partial", "Sri.c15_srcsapsimark_locate_empty_partial", "Sri.c15_srcsapsiarea_locate_empty_partial", "Sri.c15_srcsamark_locate_empty_one_partial", "Sri.c15_srcsaarea_locate_empty_one_partial", "Sri.c15_srcsaslimmark_locate_empty_one_partial", "Sri.c15_srcsaslimarea_locate_empty_one_partial", "Sri.c15_srcsapsimark_locate_empty_one_partial", "Sri.c15_srcsapsiarea_locate_empty_one_partial", "Sri.c15_rcsabwt_count_empty", "Sri.c15_rcsabwt_locate_empty", "Sri.c15_rcsapsi_count_empty", "Sri.c15_rcsapsi_locate_empty", "Sri.c15_rindex_count_empty", "Sri.c15_rindex_locate_empty_violation", "Sri.c15_srcsa_count_empty", "Sri.c15_srcsa_locate_empty_violation", "Sri.c15_srcsaslim_count_empty", "Sri.c15_srcsaslim_locate_empty_violation", "Sri.c15_srcsamark_count_empty", "Sri.c15_srcsamark_locate_empty_violation", "Sri.c15_srcsaarea_count_empty", "Sri.c15_srcsaarea_locate_empty_violation", "Sri.c15_srcsaslimmark_count_empty", "Sri.c15_srcsaslimmark_locate_empty_violation", "Sri.c15_srcsaslimarea_count_empty", "Sri.c15_srcsaslimarea_locate_empty_violation", "Sri.c15_srcsapsi_count_empty", "Sri.c15_srcsapsi_locate_empty_violation", "Sri.c15_srcsapsimark_count_empty", "Sri.c15_srcsapsimark_locate_empty_violation", "Sri.c15_srcsapsiarea_count_empty", "Sri.c15_srcsapsiarea_locate_empty_violation", "Sri.c15_srindex_count_empty", "Sri.c15_srindex_locate_empty_violation", "Sri.c15_validmark_count_empty", "Sri.c15_validmark_locate_empty_violation", "Sri.c15_validarea_count_empty", "Sri.c15_validarea_locate_empty_violation"], "note": "Count proved for every index type; Locate of the empty pattern is proved for the two r-CSAs, faults for every text on RIndex and the SrIndex family, and on SrCSA, SrCSASlim and SrCSAWithPsiRun reports one position twice for every text and every rate; the variants with validity information report as many text positions as there are but start with the wrong one, for every text and every rate, and repeat one on some texts (violation theorems), but at a rate of at most one report every position once (c15_*_locate_empty_one_partial)"},
{"property": "C16", "status": "proved", "theorems": ["Sri.c16_rindex_phi", "Sri.c16_rindex_phi_first"], "note": "for RIndex; the functor over the sub-sampled marks is C20"},
{"property": "C17", "status": "proved", "theorems": ["Sri.c17_rcsabwt_phi", "Sri.c17_rcsabwt_phi_last", "Sri.c17_rcsapsi_phi", "Sri.c17_rcsapsi_phi_last"], "note": ""},
{"property": "C18", "status": "proved", "theorems": ["Sri.c18_rcsabwt_toehold", "Sri.c18_rcsapsi_toehold", "Sri.c18_rindex_toehold", "Sri.c18_srcsa_toehold", "Sri.c18_srcsaslim_toehold", "Sri.c18_srcsamark_toehold", "Sri.c18_srcsaarea_toehold", "Sri.c18_srcsaslimmark_toehold", "Sri.c18_srcsaslimarea_toehold", "Sri.c18_srcsapsi_toehold", "Sri.c18_srcsapsimark_toehold", "Sri.c18_srcsapsiarea_toehold", "Sri.c18_srindex_toehold", "Sri.c18_validmark_toehold", "Sri.c18_validarea_toehold"], "note": "every index type"},
{"property": "C19", "status": "proved", "theorems": ["Sri.c19_sampling", "Sri.c19_sampling_gap", "Sri.c19_sorted_sampling"], "note": ""},
{"property": "C20", "status": "proved", "theorems": ["Sri.c20_srcsa_mark_phi", "Sri.c20_srcsa_area_phi", "Sri.c20_srcsa_area_extends_mark", "Sri.c20_srcsaslim_mark_phi", "Sri.c20_srcsaslim_area_phi", "Sri.c20_srcsaslim_area_extends_mark", "Sri.c20_srcsapsi_mark_phi", "Sri.c20_srcsapsi_area_phi", "Sri.c20_srcsapsi_area_extends_mark", "Sri.c20_validmark_phi", "Sri.c20_validarea_phi", "Sri.c20_area_extends_mark"], "note": ""},
{"property": "C21", "status": "proved", "theorems": ["Sri.c21_rleString_sequence", "Sri.c21_rank_outside"], "note": ""},
{"property": "C22", "status": "proved", "theorems": ["Sri.c22_run_of_position", "Sri.c22_rank_report", "Sri.c22_select_on_runs", "Sri.c22_split_in_runs"], "note": ""},
{"property": "C23", "status": "proved", "theorems": ["Sri.c23_psiCoreRLE", "Sri.c23_odd_period_violation", "Sri.c23_text"], "note": "for even sampling periods (default 64); c23_odd_period_violation shows that every odd one breaks the representation"},
{"property": "C24", "status": "proved", "theorems": ["Sri.c24_runQueries"], "note": ""},
{"property": "C25", "status": "proved", "theorems": ["Sri.c25_psiCoreBV", "Sri.c25_first_symbol_rle"], "note": ""},
{"property": "C26", "status": "proved", "theorems": ["Sri.c26_psi"], "note": ""},
{"property": "C27", "status": "proved", "theorems": ["Sri.c27_computeBWT", "Sri.c27_constructBWTRuns"], "note": ""},
{"property": "C28", "status": "proved", "theorems": ["Sri.c28_circular_predecessor", "Sri.c28_circular_soft_successor", "Sri.c28_no_set_bit"], "note": ""},
{"property": "C29", "status": "proved", "theorems": ["Sri.c29_code", "Sri.c29_sequence", "Sri.c29_get", "Sri.c29_sample", "Sri.c29_container", "Sri.c29_buffer", "Sri.c29_between", "Sri.c29_swap"], "note": ""},
{"property": "C30", "status": "partial", "theorems": ["Sri.c30_roundtrip_partial", "Sri.c30_constructed_partial", "Sri.c30_rate_dropped_violation", "Sri.c30_rate_violation", "Sri.c30_plain_violation"], "note": "proved for every index type, text, rate and storage except where the code violates it: the psi-run family's serialize drops the rate (for every text and rate, c30_rate_dropped_violation; the effect on the answers, c30_rate_violation) and, with plain bit vectors, the validity items of SrCSA are read in another order than written, so that no object reads any such stream back (c30_plain_violation)"},
{"property": "C31", "status": "partial", "theorems": ["Sri.c31_load_ignored", "Sri.c31_violation", "Sri.c31_load_partial"], "note": "false: load(in) on a non-empty storage keeps the old items (c31_load_ignored for every text, c31_violation); proved for empty storages"},
{"property": "C32", "status": "partial", "theorems": ["Sri.c32_shared_partial", "Sri.c32_clash_violation", "Sri.c32_texts_violation", "Sri.c32_stream_violation", "Sri.c32_stream_beside_violation"], "note": "proved for every sequence of loads from the cache of indexes of one text without the pair RIndex/RCSAWithBWTRun; the violation theorems cover the rest: load(in) into a storage that already has the alphabet, for all indexes (c32_stream_violation, c32_stream_beside_violation)"},
{"property": "C33", "status": "partial", "theorems": ["Sri.c33_prefix", "Sri.c33_keys", "Sri.c33_rate_specific", "Sri.c33_stream_items_violation", "Sri.c33_stream_violation", "Sri.c33_indexes_partial"], "note": "keys of different rates never collide (proved); load(in) does not refresh the key prefix, so for every text, type and pair of rates the storage then holds the samples of one rate under the keys of the other (c33_stream_items_violation; the effect on the answers, c33_stream_violation)"},
{"property": "C34", "status": "partial", "theorems": ["Sri.c34_resume_partial", "Sri.c34_between_steps_partial", "Sri.c34_supports_violation", "Sri.c34_psi_violation", "Sri.c34_restart_partial", "Sri.c34_psi_forever_violation", "Sri.c34_areas_violation", "Sri.c34_half_written_violation", "Sri.c34_torn_violation"], "note": "proved for every history of constructions, crashes and restarts whose crashes leave no step half done that will be skipped and no psi samples without marks, half-written files included (c34_resume_partial, c34_restart_partial; crashes between steps qualify, c34_between_steps_partial), and for any last crash that leaves what one index needs; for the other crash points it is false: c34_supports_violation (every text, index type and rate, for all later histories), c34_psi_forever_violation and c34_areas_violation (every text and rate, for all later histories), c34_psi_violation (a Locate that fails), c34_half_written_violation and c34_torn_violation (half-written files: every text, for all later histories)"},
{"property": "C35", "status": "proved", "theorems": ["Sri.c35_construct_text", "Sri.c35_stored_is_text", "Sri.c35_idempotent"], "note": "constructText on every byte string; also the end-to-end theorem from the bytes of a file to the answers of every index type"},
{"property": "C36", "status": "partial", "theorems": ["Sri.c36_whitespace_violation", "Sri.c36_read_partial", "Sri.c36_runs", "Sri.c36_base_partial", "Sri.c36_base_violation"], "note": "false for every file with a white-space byte (negation proved); proved for all other files, and the run positions for every text shorter than 2^40"},
{"property": "C37", "status": "proved", "theorems": ["Sri.c37_length", "Sri.c37_rcsabwt_length", "Sri.c37_rcsapsi_length", "Sri.c37_rindex_length", "Sri.c37_srcsa_length", "Sri.c37_srcsaslim_length", "Sri.c37_srcsamark_length", "Sri.c37_srcsaarea_length", "Sri.c37_srcsaslimmark_length", "Sri.c37_srcsaslimarea_length", "Sri.c37_srcsapsi_length", "Sri.c37_srcsapsimark_length", "Sri.c37_srcsapsiarea_length", "Sri.c37_srindex_length", "Sri.c37_validmark_length", "Sri.c37_validarea_length"], "note": "every index type"},
{"property": "C38", "status": "proved", "theorems": ["Sri.c38_computeLF", "Sri.c38_empty", "Sri.c38_search"], "note": ""},
{"property": "C39", "status": "proved", "theorems": ["Sri.c39_order", "Sri.c39_rcsabwt_order", "Sri.c39_rcsapsi_order", "Sri.c39_rindex_order", "Sri.c39_srcsa_order", "Sri.c39_srcsaslim_order", "Sri.c39_srcsamark_order", "Sri.c39_srcsaarea_order", "Sri.c39_srcsaslimmark_order", "Sri.c39_srcsaslimarea_order", "Sri.c39_srcsapsi_order", "Sri.c39_srcsapsimark_order", "Sri.c39_srcsapsiarea_order", "Sri.c39_srindex_order", "Sri.c39_validmark_order", "Sri.c39_validarea_order"], "note": "every index type"},
{"property": "C40", "status": "partial", "theorems": ["Sri.c40_construct_violation", "Sri.c40_construct_partial", "Sri.c40_computeBWT_violation", "Sri.c40_computeBWT_partial", "Sri.c40_links_partial", "Sri.c40_split_partial"], "note": "false for every text of 2^31 or more characters (negation proved: int counters overflow); proved below 2^31"},
{"property": "C41", "status": "proved", "theorems": ["Sri.c41_build", "Sri.c41_sequence", "Sri.c41_runs", "Sri.c41_break_range", "Sri.c41_break_in_runs", "Sri.c41_closest_run_break"], "note": "every byte string accepted by the constructor (exactly the non-empty ones without zero byte), every positive block size; block size 0 divides by zero; Nat arithmetic stands for 64-bit (no wrap below 2^64 positions)"},
{"property": "C42", "status": "partial", "theorems": ["Sri.c42_sparse_partial", "Sri.c42_bit_vector_violation", "Sri.c42_empty", "Sri.c42_huff"], "note": "sparse vectors: proved for the vector<bool> constructor on non-empty input and after assignment; violated by the bit_vector constructor (size stays 0), and empty vectors have unbound supports; huff_string: proved on exactly the strings without zero byte. sparse_hyb_vector has the same code; sdsl's hyb_vector has no select, so its select-based queries are outside the library contract"},
{"property": "C43", "status": "proved", "theorems": ["Sri.c43_storage"], "note": ""},
{"property": "C44", "status": "proved", "theorems": ["Sri.c44_answers"], "note": "also for histories with loads and failed loads by other objects on the shared storage"},
{"property": "C45", "status": "partial", "theorems": ["Sri.c45_apart_partial", "Sri.c45_progress_partial", "Sri.c45_completes_partial", "Sri.c45_same_name_violation", "Sri.c45_prefix_violation", "Sri.c45_prefix_index_violation", "Sri.c45_same_data_violation"], "note": "proved for data sets whose file names are separated (they differ, and neither is the other one with only words of the library's keys and numbers in front of it), with all interleavings; violated for equal file names in different directories, for names such as x and text_pos_x, and for two processes on one data set"},
{"property": "C46", "status": "partial", "theorems": ["Sri.c46_pair_order_violation", "Sri.c46_rle_string", "Sri.c46_rle_string_again", "Sri.c46_psi", "Sri.c46_psi_bv", "Sri.c46_sparse_partial", "Sri.c46_sparse_violation", "Sri.c46_legacy_rle_string", "Sri.c46_legacy_empty", "Sri.c46_index_partial"], "note": "proved for RLEString, PsiCoreRLE, PsiCoreBV, rle_string and non-empty sparse vectors made from vector<bool>; violated by sparse vectors made from bit_vector (nothing is written) and by empty ones (number_of_1 undefined after a round trip). Indexes: c46_index_partial instantiates C30 with the streams of the structures, with C30's exception. The serialize of pairs leaves the order of its two parts to the compiler; the theorems have the left one first, c46_pair_order_violation the other"},
{"property": "C47", "status": "partial", "theorems": ["Sri.c47_rle_string", "Sri.c47_sparse_assign", "Sri.c47_sparse_violation", "Sri.c47_psi_bv_violation", "Sri.c47_legacy_rle_string", "Sri.c47_legacy_rle_string_violation", "Sri.c47_index_partial", "Sri.c47_index_violation"], "note": "proved for RLEString, for assignment of sparse vectors and move assignment of rle_string, for indexes while the source lives, on external storage, or moved; violated by the copy constructors of sparse vectors, rle_string and PsiCoreBV and by copies of indexes with private storage that outlive their source"},
{"property": "C48", "status": "proved", "theorems": ["Sri.c48_around", "Sri.c48_count", "Sri.c48_locate", "Sri.c48_empty", "Sri.c48_absent_violation", "Sri.c48_stream"], "note": "absent characters behave as in C14 (c48_absent_violation)"},
{"property": "C49", "status": "proved", "theorems": ["Sri.c49_legacy_exact", "Sri.c49_range_report", "Sri.c49_value_exact"], "note": "the bytes 1 (rle_string holds the terminator as 1) and 255 (the F array has 256 entries) are outside the quantifier"},
{"property": "C50", "status": "partial", "theorems": ["Sri.c50_last_value_partial", "Sri.c50_dropped_value_violation", "Sri.c50_dropped_value_wrong", "Sri.c50_read_past_end_violation"], "note": "GetLastValue itself follows the search (c50_last_value_partial: exact if its result is kept); RIndexBase drops the result, so Locate is wrong for every pattern whose interval is not the last one (c50_dropped_value_violation, c50_dropped_value_wrong); a call without a value on a range that ends at the last suffix reads past the end"},
{"property": "C51", "status": "proved", "theorems": ["Sri.c14_rindex_around", "Sri.c14_srindex_around", "Sri.c14_validmark_around", "Sri.c14_validarea_around", "Sri.c14_rcsabwt_around", "Sri.c14_rcsapsi_around", "Sri.c14_srcsa_around", "Sri.c14_srcsaslim_around", "Sri.c14_srcsapsi_around", "Sri.c14_srcsamark_around", "Sri.c14_srcsaslimmark_around", "Sri.c14_srcsapsimark_around", "Sri.c14_srcsaarea_around", "Sri.c14_srcsaslimarea_around", "Sri.c14_srcsapsiarea_around", "Sri.c48_around"], "note": "Locate of a pattern that is longer than the text and is read around its end (more than once around) is outside: the toehold wraps below zero"},
{"property": "C52", "status": "proved", "theorems": ["Sri.c52_same", "Sri.c52_answers", "Sri.c52_width"], "note": "widths of sdsl's own vectors (suffix array, BWT, C) are sdsl's contract; c52_width: every width is one sdsl has"},
{"property": "C53", "status": "proved", "theorems": ["Sri.c53_step", "Sri.c53_search", "Sri.c53_indexes", "Sri.c53_empty_range"], "note": "the empty range documented as {1,0} is never returned; an empty range is returned as (a,a)"},
{"property": "C54", "status": "partial", "theorems": ["Sri.c54_algorithms_partial", "Sri.c54_other_directory_violation", "Sri.c54_crash_violation", "Sri.c54_names"], "note": "proved for data without white space (C36) under the tool's contract, from an empty cache with no files of the tool; violated when the files of the tool lie beside the data but the cache has no BWT (other output directory, crash during the copy): no Big-BWT construction ever completes"},
{"property": "C55", "status": "proved", "theorems": ["Sri.c55_sampling", "Sri.c55_space", "Sri.c55_areas", "Sri.c55_areas_csa"], "note": "sizes in entries; the bytes of the succinct structures are not modelled"},
{"property": "C56", "status": "proved", "theorems": ["Sri.c56_work"], "note": "work is counted in calls of the functors of an index; the cost of one call inside sdsl is not modelled. The counting functions are proved to compute what the modelled functions compute"},
{"property": "C57", "status": "proved", "theorems": ["Sri.c57_index", "Sri.c57_index_load", "Sri.c57_structures", "Sri.c57_legacy_rle_string", "Sri.c57_print_space", "Sri.c57_pair_order"], "note": "contract: each type of sdsl returns the number of bytes it writes; c57_index_load has C30's exception for streams that cannot be read back"},
{"property": "C58", "status": "partial", "theorems": ["Sri.c58_runs_violation", "Sri.c58_locate_violation", "Sri.c58_rcsa_violation", "Sri.c58_slim_violation", "Sri.c58_subsampled_violation", "Sri.c58_symbols_violation", "Sri.c58_count_partial", "Sri.c58_built_partial", "Sri.c58_large_alphabet_violation"], "note": "violated: constructBWTRuns<0> compares a reference with itself and always reports one run, so Locate of one-symbol patterns is wrong over every text with RIndex, SrIndex and its variants, RCSAWithPsiRun and (other than the last symbol) RCSAWithBWTRun, SrCSASlim and its variants cannot be built, and the other classes fail on a text; patterns lose all but the lowest eight bits of their symbols; more than 256 distinct integers do not fit the run-length BWT. Proved: Count of every class is exact up to 256 distinct integers for patterns below 256"},
{"property": "C59", "status": "partial", "theorems": ["Sri.c59_bytes_partial", "Sri.c59_large_symbol_violation", "Sri.c59_negative_char_violation", "Sri.c59_ascii_partial", "Sri.c59_reference_violation"], "note": "violated for char below zero (std::string with bytes from 128 on), symbols from 256 on with the default string type, and elements reached through sdsl references; proved for bytes by value and for ASCII strings"},
{"property": "C60", "status": "proved", "theorems": ["Sri.c60_sr_index", "Sri.c60_sr_csa", "Sri.c60_both_violation"], "note": "both factories, every history of requests; c60_both_violation shows that the two families may not be mixed in one storage"},
{"property": "C61", "status": "partial", "theorems": ["Sri.c61_encode_partial", "Sri.c61_encode_violation", "Sri.c61_round_trip", "Sri.c61_encode_decode_partial", "Sri.c61_lines_partial", "Sri.c61_accepts", "Sri.c61_reencode", "Sri.c61_concatenation", "Sri.c61_refuses_violation"], "note": "violated: strings of 2^32 bytes or more are never encoded (the counter is an unsigned int), and the decoder accepts texts that are not base64 (c61_accepts says which). Proved below 2^32 bytes: the text is the standard one and decodes back"},
{"property": "C62", "status": "proved", "theorems": ["Sri.c62_lines", "Sri.c62_plain", "Sri.c62_base64_texts", "Sri.c62_base64", "Sri.c62_never_empty", "Sri.c62_errors"], "note": "every file; what the decoder refuses is c61_accepts"},
{"property": "C63", "status": "proved", "theorems": ["Sri.c63_sr_index", "Sri.c63_sr_csa", "Sri.c63_micro", "Sri.c63_files", "Sri.c63_program_sr_index", "Sri.c63_program_sr_csa"], "note": "patterns over the characters of the text; for other patterns the answers are those of C14/C51. Totals are numbers of 64 bits. Contract: State::name() is the registered name"},
{"property": "C64", "status": "partial", "theorems": ["Sri.c64_counters_partial", "Sri.c64_psi_runs", "Sri.c64_filter_violation", "Sri.c64_run", "Sri.c64_ri_program", "Sri.c64_csa_program", "Sri.c64_same_samples"], "note": "violated: the benchmarks of the sub-sampled classes over the runs of psi read r' from <s>_bwt_run_first_idx, which their construction does not write (c64_filter_violation: for every text and rate the run on a new directory fails). If another SR-CSA construction at the same rate has left that file, r' is right, because both keep the same samples (c64_psi_runs, c64_same_samples)"},
{"property": "C65", "status": "partial", "theorems": ["Sri.c65_build_partial", "Sri.c65_build_plain_partial", "Sri.c65_items_partial", "Sri.c65_again_partial", "Sri.c65_reports_partial", "Sri.c65_restart_partial", "Sri.c65_restart_fault_violation", "Sri.c65_restart_skip_violation", "Sri.c65_empty_file_violation", "Sri.c65_byte_255_violation", "Sri.c65_foreign_bwt_violation", "Sri.c65_changed_file_violation", "Sri.c65_byte_zero_violation", "Sri.c65_byte_one_violation", "Sri.c65_r_index_violation"], "note": "proved for every non-empty file without the bytes 1 and 255 and for the three sub-sampled indexes; violated by the code otherwise: byte 255 and the empty file fault, byte 1 is counted once too often, byte 0 becomes 2, the r-index composition of the factory locates the wrong rows, a builder stopped inside a sampling loop after the rate 16 faults or stays incomplete for ever, a changed data file or a BWT of the library in the directory is taken for its own"},
{"property": "C66", "status": "partial", "theorems": ["Sri.c66_words", "Sri.c66_plot_partial", "Sri.c66_missing_violation", "Sri.c66_csa_program_partial", "Sri.c66_ri_program_violation", "Sri.c66_hash_violation"], "note": "proved when the cache has the files the script asks for (c66_plot_partial, c66_csa_program_partial) and for every vector (c66_words); violated by the code when one is missing, e.g. for every text after the SR-index classes only (c66_ri_program_violation, c66_missing_violation), and for --hash_type (c66_hash_violation)"},
{"property": "C67", "status": "partial", "theorems": ["Sri.c67_default", "Sri.c67_other_classes", "Sri.c67_names_partial", "Sri.c67_psi_violation", "Sri.c67_alphabet_violation", "Sri.c67_unset_violation", "Sri.c67_bwt_violation", "Sri.c67_clash_violation"], "note": "Proved: with the default names nothing changes (every state); the other classes ignore the names; with any usable names (those of files that other code writes unchanged, the rest distinct) every history of constructions and restarts gives exact indexes. Missing because the code does not do it: other names for psi, the alphabet, the BWT or its runs, no names (Config()), and equal names; the failures are proved for every text, class and rate."},
{"property": "C68", "status": "partial", "theorems": ["Sri.c68_construct_partial", "Sri.c68_default_violation"], "note": "proved for objects made with a rate and for classes without one; objects of the sub-sampled classes made without a rate cannot be constructed or loaded, for any text and history (c68_default_violation)"},
{"property": "C69", "status": "partial", "theorems": ["Sri.c69_same_text_partial", "Sri.c69_other_text_violation"], "note": "proved for the text the object was constructed for; for every other text the object keeps answering for the old one (c69_other_text_violation)"},
{"property": "C70", "status": "partial", "theorems": ["Sri.c70_nullptr", "Sri.c70_index_partial", "Sri.c70_index_node_violation", "Sri.c70_two_indexes", "Sri.c70_structures"], "note": "Proved: the structures file themselves with the right size and parts; an index files its parts with the right sizes, which add up to the bytes written, and touches nothing else. Violated: the node of the index itself stays at size 0, for every class, text and rate (c70_index_node_violation). Two indexes under one name keep apart unless class_name confuses their classes (c70_two_indexes)."},
{"property": "C71", "status": "proved", "theorems": ["Sri.c71_same", "Sri.c71_exact", "Sri.c71_rle_string", "Sri.c71_psi"], "note": "texts below 2^60 symbols (2^31 - 1 for the classes with an int counter, see C40), rates below 2^63; query functors, run-length string and run-length psi in words; bit vectors, wavelet trees and the decoder by contract"},
{"property": "C72", "status": "proved", "theorems": ["Sri.c72_same_items", "Sri.c72_exact", "Sri.c72_bound_sharp"], "note": "texts below 2^31 symbols (sharp: c72_bound_sharp), rates below 2^63; suffix array, BWT, alphabet, sorting, bit vectors, wavelet trees and the sampled vector by contract"},
{"property": "C73", "status": "proved", "theorems": ["Sri.c73_whole_program_partial", "Sri.c73_whole_program"], "note": "default template arguments: c73_whole_program; c73_whole_program_partial for plain bit vectors, without the two classes whose streams cannot be read (C30). Sdsl primitives, suffix sorting and file system by contract."},
{"property": "C74", "status": "partial", "theorems": ["Sri.c74_checked_partial", "Sri.c74_buffered_partial", "Sri.c74_order_violation", "Sri.c74_repair_partial", "Sri.c74_repair_violation", "Sri.c74_loose_violation", "Sri.c74_halt_violation"], "note": "False of the code for four classes for every text (c74_order_violation) and for each of the eight loose files on an example (c74_loose_violation); with constructions that stop, also if the eight can be written (c74_halt_violation). Proved: exactness of every index that loads, over all histories in which the eight could be written by constructions that complete, and twelve by those that stop because a file is missing or because the first buffer of a step cannot be opened for writing (c74_checked_partial); files written through buffers make construction fail (c74_buffered_partial). Repair by constructing again: c74_repair_partial for directories without skipped gaps, and false for every text and class when the rank support of the marks is lost (c74_repair_violation). Missing: what a construction leaves that fails because a buffer cannot be opened for writing while others of the same step are open or have been written (as after a crash within a step, C34)."},
{"property": "C75", "status": "partial", "theorems": ["Sri.c75_apart_partial", "Sri.c75_rates_partial", "Sri.c75_after_one_partial", "Sri.c75_open_violation", "Sri.c75_psi_violation", "Sri.c75_silent_violation"], "note": "the code violates the property: nothing locks the directory; proved for every schedule in which no process begins a step while another is writing a file that the step touches, and for every schedule of processes at different rates once the files without a rate are there; the violation theorems show for every text that the other schedules fail"},
{"property": "C76", "status": "proved", "theorems": ["Sri.c76_work"], "note": "every index type; operations of sdsl count 1 each, whatever they cost inside"},
{"property": "C77", "status": "proved", "theorems": ["Sri.c77_operations"], "note": "every index type; operations of sdsl count 1 each, whatever they cost inside"},
{"property": "C78", "status": "partial", "theorems": ["Sri.c78_srindex_partial", "Sri.c78_srindex_area_violation", "Sri.c78_srcsa", "Sri.c78_srcsaslim", "Sri.c78_srcsapsi"], "note": "proved for the classes over psi and for SrIndexValidMark; the code violates it for SrIndexValidArea at the positions of removed marks (c78_srindex_area_violation, for every text and rate in which a mark is removed), and c78_srindex_partial says that these are the only exceptions"},
{"property": "C79", "status": "proved", "theorems": ["Sri.c79_sampling", "Sri.c79_rate_mono"], "note": "every index type; the valid areas, which are not monotone, are not among what is claimed"},
{"property": "C80", "status": "proved", "theorems": ["Sri.c80_srindex", "Sri.c80_srcsa", "Sri.c80_srcsaslim", "Sri.c80_srcsapsi", "Sri.c80_srindex_valid", "Sri.c80_srcsa_valid", "Sri.c80_srcsaslim_valid", "Sri.c80_srcsapsi_valid"], "note": "all the sub-sampled types; what is equal are the items, the queries of both being covered by C01-C05"},
{"property": "C81", "status": "partial", "theorems": ["Sri.c81_table", "Sri.c81_curves_partial", "Sri.c81_curves_violation", "Sri.c81_curves_missing"], "note": "The table is proved right for every input (c81_table). The curves are right when the listed indexes first occur in the results in the order of the file of indexes (c81_curves_partial); otherwise the code mislabels them (c81_curves_violation) or ends (c81_curves_missing)."},
{"property": "C82", "status": "proved", "theorems": ["Sri.c82_suffix_array", "Sri.c82_items_r", "Sri.c82_items_csa", "Sri.c82_answers"], "note": "for every type, text, renaming, rate and pattern; symbols are unbounded naturals in the model, so that the images must be bytes for the byte classes (C58 and C59 say what happens to other symbols)"},
{"property": "C83", "status": "partial", "theorems": ["Sri.c83_build_partial", "Sri.c83_run_partial", "Sri.c83_build_violation", "Sri.c83_run_violation", "Sri.c83_build_empty_violation"], "note": "proved for absolute arguments and at least one collection (c83_build_partial, c83_run_partial); violated by the code for relative directories (no run gets its files) and for empty directories"},
{"property": "C84", "status": "proved", "theorems": ["Sri.c84_order", "Sri.c84_keeps", "Sri.c84_again"], "note": ""},
{"property": "C85", "status": "proved", "theorems": ["Sri.c85_rle", "Sri.c85_psi", "Sri.c85_text"], "note": "bit vectors are counted by their ones, integer vectors by their entries; the bits that sdsl spends on one of these are not modelled"}
]}

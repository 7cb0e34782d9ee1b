{
 "claims": [
  {
   "property": "C01",
   "status": "proved",
   "theorems": [
    "Verif.HashTable.C01_hashtable_is_a_map"
   ],
   "note": "all key types, hash functions, capacities and call histories"
  },
  {
   "property": "C02",
   "status": "proved",
   "theorems": [
    "Verif.HashTable.C02_insert_never_faults",
    "Verif.HashTable.C02_never_faults_below_half_capacity",
    "Verif.HashTable.C02_decoder_table_never_faults"
   ],
   "note": "explicit bounds: 32767 keys for any capacity in [3, 536870923]; 46338 states for the decoder table"
  },
  {
   "property": "C03",
   "status": "partial",
   "theorems": [
    "Verif.HashTable.C03_find_absent_key_fails",
    "Verif.HashTable.C03_third_insert_fails",
    "Verif.HashTable.C03_find_bound_key_partial"
   ],
   "note": "the property is false: proved with concrete witnesses; lookups of bound keys always succeed"
  },
  {
   "property": "C04",
   "status": "proved",
   "theorems": [
    "Verif.Pool.C04_pool_never_aliases",
    "Verif.Pool.C04_pool_calls_succeed"
   ],
   "note": "All histories of Alloc/Dealloc/Clear, every block size; int overflow beyond 2^31 slots not modelled."
  },
  {
   "property": "C05",
   "status": "proved",
   "theorems": [
    "Verif.Pool.C05_pool_accounting",
    "Verif.Pool.C05_pool_grows_only_when_full"
   ],
   "note": "All histories, every block size."
  },
  {
   "property": "C06",
   "status": "partial",
   "theorems": [
    "Verif.Pool.C06_clear_destroys_each_object_once_partial",
    "Verif.Pool.C06_second_clear_is_undefined",
    "Verif.Pool.C06_clear_defined_iff"
   ],
   "note": "Full claim is false: once a pool has two blocks a second Clear (or the destructor) destroys dead slots; exact boundary proved."
  },
  {
   "property": "C07",
   "status": "partial",
   "theorems": [
    "Verif.Gc.C07_histories_survive_gc_partial",
    "Verif.Gc.C07_first_collection_is_fresh",
    "Verif.Gc.C07_second_collection_corrupts"
   ],
   "note": "Full claim is false (stale mark on the last bump-allocated slot); proved for all histories without stale mark, and the failure proved for every history with a two-word history in that slot."
  },
  {
   "property": "C08",
   "status": "proved",
   "theorems": [
    "Verif.Gc.C08_gc_frees_exactly_the_unreachable"
   ],
   "note": "Every history without stale marks (the precondition of C07)."
  },
  {
   "property": "C09",
   "status": "proved",
   "theorems": [
    "Verif.Gc.C09_successor_links_well_formed",
    "Verif.Gc.C09_extending_twice_is_idempotent"
   ],
   "note": "Every history satisfying the collection precondition."
  },
  {
   "property": "C10",
   "status": "proved",
   "theorems": [
    "Verif.Fst.C10_fst_file_round_trip",
    "Verif.Fst.C10_file_without_arcs_unreadable"
   ],
   "note": "Byte-level model of converter and reader. A transducer without arcs (excluded by the property) is written but cannot be read back."
  },
  {
   "property": "C100",
   "status": "partial",
   "theorems": [
    "Verif.Ieee.C100_scores_partial",
    "Verif.Ieee.C100_all",
    "Verif.Ieee.C100_normalize",
    "Verif.Ieee.C100_nan"
   ],
   "note": "False as it stands: a normalise layer makes NaN of a vector of zeros (C100_normalize), and there are networks with number weights that score NaN on all audio (C100_nan). Proved for all audio for networks without a normalise layer and with softmax layers where the weights keep the numbers below 64 (C100_all), and for all networks on audio for which no normalise layer gets a vector of tiny numbers and no softmax layer one above 64 or all below -64 (C100_scores_partial)."
  },
  {
   "property": "C101",
   "status": "proved",
   "theorems": [
    "Verif.Ieee.C101_decoder",
    "Verif.Ieee.C101_utterance",
    "Verif.Ieee.C101_program",
    "Verif.Ieee.C101_files",
    "Verif.Main.C101_dead_end",
    "Verif.Main.C101_needs_path",
    "Verif.Ieee.C101_script"
   ],
   "note": "C101_program: the program ends normally with one line. C101_files: the same from conditions on the files alone, with the language model given as the backoff transducer it was converted from. C101_utterance: through the interface, any pieces. C101_decoder: the decoder alone, any scores of moderate size, and no frame is refused. C101_dead_end, C101_needs_path: a graph with dead ends makes the next frame undefined behaviour, in any arithmetic. C101_script: a script of audio files gives one line for each, in their order."
  },
  {
   "property": "C102",
   "status": "proved",
   "theorems": [
    "Verif.Decoder.C102_tokens",
    "Verif.Decoder.C102_few",
    "Verif.Decoder.C102_few_memory",
    "Verif.Ieee.C102_program",
    "Verif.Ieee.C102_memory"
   ],
   "note": "C102_tokens: at most K M tokens after any frames, any arithmetic. C102_few, C102_few_memory: the conditions of C95, C98 and C71 on the number of tokens hold of all recordings. C102_program: the program ends, and its line is that of a path within the margin of every path inside the beam. C102_memory: the decoder with its memory takes all frames and answers, unless a collection starts with a stale mark; never within twenty frames."
  },
  {
   "property": "C103",
   "status": "proved",
   "theorems": [
    "Verif.Ieee.C103_accurate",
    "Verif.Ieee.C103_fbank"
   ],
   "note": "C103_accurate: for every N = 2^k from 4 to 32768 and every signal up to A the object can be made, Compute returns, and each number of the packed spectrum is a finite float within N A (99 k + 8 N) / 2^24 of the exact transform. C103_fbank: for 512 points, within 0.153 A. The one hypothesis on the library, TrigLaws, is met by someLib (someLib_trig)."
  },
  {
   "property": "C104",
   "status": "proved",
   "theorems": [
    "Verif.Ieee.C104_frame",
    "Verif.Ieee.C104_features",
    "Verif.Ieee.C104_audio"
   ],
   "note": "C104_frame: a frame of 400 floats. C104_features: all frames of a signal. C104_audio: from the bytes of 16-bit audio, in pieces, to the rows. The hypotheses on the library, LibLaws, TrigLaws and LogLaws, are met by someLib (someLib_laws, someLib_trig, someLib_log). The error is stated partly in the input (weights, magnitudes) because a filter that passes next to nothing has no small error in the logarithm."
  },
  {
   "property": "C105",
   "status": "proved",
   "theorems": [
    "Verif.Ieee.C105_close",
    "Verif.Ieee.C105_drift"
   ],
   "note": "C105_close: the error bound. C105_drift: frames for which the error is k/1024 after k times 18 seconds, so that the bound has to grow with the length. In exact arithmetic there is no error (C46)."
  },
  {
   "property": "C106",
   "status": "proved",
   "theorems": [
    "Verif.Ieee.C106_network",
    "Verif.Ieee.C106_propagate",
    "Verif.Ieee.C106_scores",
    "Verif.Ieee.C106_audio"
   ],
   "note": "The inputs of a log-softmax must be at most 63 and one of them at least -63; beyond, exp overflows or all terms vanish (C86, C100). Normalise and softmax layers, which the converter does not write, are not in it. The accuracy of exp, log and cblas_sgemm is an assumption (ScoreLaws), met by a library that rounds each operation."
  },
  {
   "property": "C107",
   "status": "proved",
   "theorems": [
    "Verif.Ieee.C107_decoder",
    "Verif.Ieee.C107_program"
   ],
   "note": "The hypotheses are those of C102 (model) and C106 (network, library). That the answer need not be exactly the best is C98_rounding_error. 32-bit audio is not in it, because C104 bounds samples by 2^15."
  },
  {
   "property": "C108",
   "status": "proved",
   "theorems": [
    "Verif.NetMem.C108_product",
    "Verif.NetMem.C108_network",
    "Verif.NetMem.C108_narrow",
    "Verif.NetMem.C108_layer_in_place",
    "Verif.NetMem.C108_product_in_place"
   ],
   "note": "Networks as the converter builds them with more input rows than context. cblas_sgemm is taken by its documentation: leading dimensions large enough, no overlap of the result with a factor."
  },
  {
   "property": "C109",
   "status": "proved",
   "theorems": [
    "Verif.AmMem.C109_utterance",
    "Verif.AmMem.C109_on_the_way",
    "Verif.AmMem.C109_chunk_zero"
   ],
   "note": "Networks as the converter builds them, contexts of the configuration equal to those of the network, batch size at least 1, at most 2^31 - 1 feature values per piece. How the features are computed is C26, C29, C36."
  },
  {
   "property": "C11",
   "status": "partial",
   "theorems": [
    "Verif.Fst.C11_truncated_rejected",
    "Verif.Fst.C11_wrong_name_rejected",
    "Verif.Fst.C11_wrong_size_rejected_partial",
    "Verif.Fst.C11_accepted_file_is_complete",
    "Verif.Fst.C11_negative_count_throws"
   ],
   "note": "Truncation, wrong name and reading past the end are proved for every file. Inconsistent sizes are rejected when the required size fits 32 bits; the check works modulo 2^32 and a file declaring -2^29 states makes resize throw (proved)."
  },
  {
   "property": "C110",
   "status": "proved",
   "theorems": [
    "Verif.FbankMem.C110_call",
    "Verif.FbankMem.C110_stream",
    "Verif.FbankMem.C110_utterance",
    "Verif.FbankMem.C110_no_samples"
   ],
   "note": "The FFT itself works on the contents of its two arrays, as in C43; that SRFFT uses the buffer as scratch space only is C43, C27."
  },
  {
   "property": "C111",
   "status": "proved",
   "theorems": [
    "Verif.Hear.C111_utterance",
    "Verif.Hear.C111_on_the_way"
   ],
   "note": "C109 and C110 put together. The bytes are samples already (C25) and the decoder is not on memory here; the network consists of the layers of C28."
  },
  {
   "property": "C112",
   "status": "proved",
   "theorems": [
    "Verif.Whole.C112_same",
    "Verif.Whole.C112_short",
    "Verif.Whole.C112_words_lost"
   ],
   "note": "The blocks of float of the front end and the memory of the decoder are two memories that do not point to each other. Audio with a NaN among its features ends in an abort (C110) and is not covered here."
  },
  {
   "property": "C113",
   "status": "proved",
   "theorems": [
    "Verif.SrfftMem.C113_tables",
    "Verif.SrfftMem.C113_refused",
    "Verif.SrfftMem.C113_finishes",
    "Verif.SrfftMem.C113_copy_frees_twice"
   ],
   "note": "The data and the buffer of the caller are lists; the tables are blocks. The class can be copied, and then both destructors free the same blocks (C113_copy_frees_twice); the program never copies it."
  },
  {
   "property": "C114",
   "status": "partial",
   "theorems": [
    "Verif.Ieee.C114_any_audio"
   ],
   "note": "Everything except recordings in which the decoder follows a stale mark, where the claim is false (C71, C88, C112_words_lost); up to twenty frames there are none. Limits as in C101, C102 and C112: 100000 words, 46338 tokens, pieces below 536870500 bytes. Allocation does not fail."
  },
  {
   "property": "C115",
   "status": "partial",
   "theorems": [
    "Verif.Header.C115_accepted",
    "Verif.Header.C115_written",
    "Verif.Header.C115_untouched_partial",
    "Verif.Header.C115_undefined",
    "Verif.Header.C115_refused_but_filled"
   ],
   "note": "True when the header is accepted, and when the file does not begin as a PCM file of at least 24 bytes. False otherwise: fields are stored while later ones are still to be checked (C115_written says exactly which), and a header with a LIST chunk before the audio is refused with the object filled with a format the reader takes (C115_refused_but_filled)."
  },
  {
   "property": "C116",
   "status": "proved",
   "theorems": [
    "Verif.Tool.C116_table",
    "Verif.Tool.C116_refused",
    "Verif.Tool.C116_too_negative",
    "Verif.Tool.C116_rejected",
    "Verif.Tool.C116_negative_overwrites",
    "Verif.App.C116_no_recogniser"
   ],
   "note": "The text of the numbers is the decimal text without leading zeros; a list is a list of lines. C116_negative_overwrites: a line with -1 silently replaces the word of the largest id. C116_no_recogniser: with a converted list as symbol_table ce_stt_init never returns a recogniser, whatever the other files are."
  },
  {
   "property": "C117",
   "status": "proved",
   "theorems": [
    "Verif.Mat.C117_plain",
    "Verif.Mat.C117_plain_refused",
    "Verif.Mat.C117_scale",
    "Verif.Mat.C117_set_rand",
    "Verif.Ieee.C117_unit",
    "Verif.Ieee.C117_unit_one",
    "Verif.Ieee.C117_unit_near"
   ],
   "note": "RAND_MAX is 2147483647, as in the GNU library. C117_unit_one: 1 itself is reached. C117_unit_near: in float the number is the quotient up to 1 / 2^22."
  },
  {
   "property": "C118",
   "status": "proved",
   "theorems": [
    "Verif.Tool.C118_map",
    "Verif.Tool.C118_line_ends"
   ],
   "note": "The answers of Kaldi's TransitionModel are arbitrary numbers; Kaldi's own reading of the model file is not modelled."
  },
  {
   "property": "C119",
   "status": "proved",
   "theorems": [
    "Verif.VecMem.C119_copy",
    "Verif.VecMem.C119_add",
    "Verif.VecMem.C119_dims",
    "Verif.VecMem.C119_empty",
    "Verif.Ieee.C119_back",
    "Verif.Ieee.C119_narrow",
    "Verif.Ieee.C119_add64",
    "Verif.Ieee.C119_add32"
   ],
   "note": "C119_narrow for numbers up to 2^127, C119_add64 and C119_add32 for products (and sums) up to 2^250."
  },
  {
   "property": "C12",
   "status": "proved",
   "theorems": [
    "Verif.Fst.C12_get_arc_finds_first_arc"
   ],
   "note": ""
  },
  {
   "property": "C120",
   "status": "proved",
   "theorems": [
    "Verif.Tool.C120_costs",
    "Verif.Tool.C120_words_only",
    "Verif.Tool.C120_stale",
    "Verif.Tool.C120_torn"
   ],
   "note": "C120_stale and C120_torn are the defect: line 49 lacks the '|| exit 22' of the other lines."
  },
  {
   "property": "C121",
   "status": "proved",
   "theorems": [
    "Verif.Fst.C121_text",
    "Verif.Fst.C121_binary",
    "Verif.Fst.C121_lines"
   ],
   "note": "What Python makes of a weight is a function that is asked to be injective and on one line."
  },
  {
   "property": "C122",
   "status": "partial",
   "theorems": [
    "Verif.Chartok.C122_scored_partial",
    "Verif.Chartok.C122_missing",
    "Verif.Chartok.C122_directory"
   ],
   "note": "False in general: C122_missing and C122_directory are the counterexamples, for all names. What compute-wer does is not modelled."
  },
  {
   "property": "C13",
   "status": "proved",
   "theorems": [
    "Verif.Fst.C13_backoff_lookup",
    "Verif.Fst.C13_backoff_final",
    "Verif.Fst.C13_backoff_cycle_never_returns"
   ],
   "note": "Weights are an arbitrary type with arbitrary addition, so the order of additions is exact."
  },
  {
   "property": "C14",
   "status": "proved",
   "theorems": [
    "Verif.Fst.C14_unigram_table_transparent",
    "Verif.Fst.C14_duplicate_labels_differ"
   ],
   "note": ""
  },
  {
   "property": "C15",
   "status": "proved",
   "theorems": [
    "Verif.Fst.C15_cache_transparent",
    "Verif.Fst.C15_cached_delta_lm",
    "Verif.Fst.C15_hash_overflows"
   ],
   "note": "For states and labels whose int32 hash does not overflow (state numbers below about 69 million)."
  },
  {
   "property": "C16",
   "status": "proved",
   "theorems": [
    "Verif.Fst.C16_delta_score",
    "Verif.Fst.C16_delta_start",
    "Verif.Fst.C16_delta_final"
   ],
   "note": ""
  },
  {
   "property": "C17",
   "status": "proved",
   "theorems": [
    "Verif.Decoder.C17_one_token_per_state"
   ],
   "note": "For every graph, language model, arithmetic and frame sequence, whatever Process returned. state_idx_ is an association list here; that the hash table implements it is C01."
  },
  {
   "property": "C18",
   "status": "partial",
   "theorems": [
    "Verif.Decoder.C18_tokens_are_paths",
    "Verif.Decoder.C18_best_path_is_a_path",
    "Verif.Mdec.C71_answer_is_a_path_partial"
   ],
   "note": "Proved for histories as values, and for histories in collected memory as long as no collection starts with a stale mark (C71). Beyond that it is false (C71_words_lost)."
  },
  {
   "property": "C19",
   "status": "proved",
   "theorems": [
    "Verif.Decoder.C19_best_path_minimal",
    "Verif.Decoder.C19_best_path_answers"
   ],
   "note": "Needs only transitivity and irreflexivity of < on doubles (true with NaN)."
  },
  {
   "property": "C20",
   "status": "partial",
   "theorems": [
    "Verif.Decoder.C20_final_cost_counted_twice",
    "Verif.Decoder.C20_weight_partial"
   ],
   "note": "False of the code: BestPath adds the final weight a second time. Witness run plus the formula that holds."
  },
  {
   "property": "C21",
   "status": "proved",
   "theorems": [
    "Verif.Decoder.C21_best_token_not_pruned"
   ],
   "note": "Laws used: rounding never crosses a float, adding the beam does not decrease."
  },
  {
   "property": "C22",
   "status": "proved",
   "theorems": [
    "Verif.Decoder.C22_sample_index_in_range",
    "Verif.Decoder.C22_cutoff_always_computed"
   ],
   "note": "Uses the actual generator: draw 133 is 89, draw 53014 is 0 (low 16 bits). Division is assumed to order fractions a factor two apart. That nth_element may be called on the sample (no NaN beside two different numbers) is a hypothesis of the second theorem; C85 shows what happens otherwise. The number of active tokens is below 2^64 (a size_t); without this FracLaw would not hold of IEEE arithmetic (see C98)."
  },
  {
   "property": "C23",
   "status": "partial",
   "theorems": [
    "Verif.Decoder.C23_frame_after_dead_beam_undefined",
    "Verif.Decoder.C23_negative_ids_undefined",
    "Verif.Decoder.C23_live_beam_safe_partial",
    "Verif.Decoder.C23_converted_model_tame"
   ],
   "note": "False of the code: a frame after the beam died reads prev_toks_[0] of an empty vector. Proved: no undefined behaviour as long as every frame was reported processed, for graphs and transition maps without negative numbers, a language model that answers (witnesses of undefined behaviour for negative ones) and beams whose costs are comparable (C85 for those that are not); a converted language model whose arcs lead to states of it is such a model. The number of active tokens is below 2^64 (a size_t)."
  },
  {
   "property": "C24",
   "status": "partial",
   "theorems": [
    "Verif.Decoder.C24_second_initialize_undefined",
    "Verif.Decoder.C24_reinitialize_partial"
   ],
   "note": "False of the code: state_idx_ is not cleared. Proved for an empty index, up to end-of-stream flag and token accounting."
  },
  {
   "property": "C25",
   "status": "partial",
   "theorems": [
    "Verif.Pcm.C25_chunk_independence_partial",
    "Verif.Pcm.C25_same_stream_partial",
    "Verif.Pcm.C25_reset",
    "Verif.Pcm.C25_supported_formats",
    "Verif.Pcm.C25_huge_piece_throws",
    "Verif.Pcm.C25_huge_piece_overflows",
    "Verif.Pcm.C25_whole_file"
   ],
   "note": "Proved for pieces shorter than 2^29 bytes; longer pieces overflow the int that holds the byte size of the sample vector (proved)."
  },
  {
   "property": "C26",
   "status": "partial",
   "theorems": [
    "Verif.Pcm.C26_accepted",
    "Verif.Pcm.C26_mono_partial",
    "Verif.Pcm.C26_documented_header_rejected",
    "Verif.Pcm.C26_overflow",
    "Verif.Pcm.C26_faults_only_on_overflow",
    "Verif.Pcm.C26_short_file_rejected"
   ],
   "note": "Exact characterisation of the accepted headers for all files; equals the documented set for one channel. False for several channels (documented header rejected) and when rate*bits overflows int."
  },
  {
   "property": "C27",
   "status": "partial",
   "theorems": [
    "Verif.Fbank.C27_constructed_partial",
    "Verif.Fbank.C27_chunk_independence_partial",
    "Verif.Fbank.C27_same_signal_partial",
    "Verif.Fbank.C27_rows",
    "Verif.Fbank.C27_frames",
    "Verif.Fbank.C27_empty_piece_aborts"
   ],
   "note": "Any arithmetic, for every object the constructor makes (tables and FFT modelled); pieces below 536870500 samples (larger ones cannot be allocated). Empty pieces abort."
  },
  {
   "property": "C28",
   "status": "proved",
   "theorems": [
    "Verif.Am.C28_scores",
    "Verif.Am.C28_batching",
    "Verif.Am.C28_no_frames",
    "Verif.Am.C28_chunk_minus_one",
    "Verif.Am.C28_second_end_repeats"
   ],
   "note": "Any arithmetic; cblas_sgemm is assumed to compute every row of the product from the corresponding row alone; batch sizes whose matrices fit in an int."
  },
  {
   "property": "C29",
   "status": "partial",
   "theorems": [
    "Verif.Stt.C29_chunk_independence_partial",
    "Verif.Stt.C29_end_to_end_partial"
   ],
   "note": "Missing: pieces of 536870500 bytes or more; the kind of fault, when a run does not reach the end, may depend on the cutting."
  },
  {
   "property": "C30",
   "status": "proved",
   "theorems": [
    "Verif.Nnet.C30_rows",
    "Verif.Nnet.C30_context",
    "Verif.Nnet.C30_window",
    "Verif.Nnet.C30_short_input"
   ],
   "note": "All networks of the form the converter writes (predicate Built), any arithmetic."
  },
  {
   "property": "C31",
   "status": "proved",
   "theorems": [
    "Verif.Ser.C31_vector",
    "Verif.Ser.C31_vectors",
    "Verif.Ser.C31_wrong_size",
    "Verif.Ser.C31_matrix",
    "Verif.Ser.C31_empty_vector"
   ],
   "note": "Elements by their 32 bits; every continuation of the file. The empty vector, outside the claim, is shown to be rejected."
  },
  {
   "property": "C32",
   "status": "partial",
   "theorems": [
    "Verif.Ser.C32_fails",
    "Verif.Ser.C32_indeterminate",
    "Verif.Ser.C32_missing_rows_are_copies",
    "Verif.Ser.C32_rejected_iff_partial"
   ],
   "note": "False of the code; exactly the cuts before byte 28 are rejected."
  },
  {
   "property": "C33",
   "status": "proved",
   "theorems": [
    "Verif.Ser.C33_round_trip",
    "Verif.Ser.C33_injective"
   ],
   "note": "All layer stacks with non-empty matrices and vectors whose sizes fit in 32 bits."
  },
  {
   "property": "C34",
   "status": "proved",
   "theorems": [
    "Verif.Text.C34_trim",
    "Verif.Text.C34_trim_total",
    "Verif.Text.C34_trim_idempotent"
   ],
   "note": "isspace on bytes above 127 taken as false (C locale)"
  },
  {
   "property": "C35",
   "status": "proved",
   "theorems": [
    "Verif.Text.C35_split",
    "Verif.Text.C35_split_inverts_join",
    "Verif.Text.C35_split_empty_separator_diverges"
   ],
   "note": ""
  },
  {
   "property": "C36",
   "status": "partial",
   "theorems": [
    "Verif.Text.C36_argument_with_braces_captures",
    "Verif.Text.C36_format_partial"
   ],
   "note": "false when both braces occur in pieces/arguments; proved when one of the two braces is absent"
  },
  {
   "property": "C37",
   "status": "proved",
   "theorems": [
    "Verif.Text.C37_strlcpy",
    "Verif.Text.C37_strlcpy_needs_terminator"
   ],
   "note": ""
  },
  {
   "property": "C38",
   "status": "partial",
   "theorems": [
    "Verif.Text.C38_lookup",
    "Verif.Text.C38_read_never_faults",
    "Verif.Text.C38_path_partial",
    "Verif.Text.C38_path_default",
    "Verif.Text.C38_path_never_faults",
    "Verif.Text.C38_sentinel_value_lost"
   ],
   "note": "lookup proved in full; paths except for the value equal to the program's not-found sentinel, for which it is false"
  },
  {
   "property": "C39",
   "status": "proved",
   "theorems": [
    "Verif.Text.C39_symbol_table",
    "Verif.Text.C39_any_accepted_file"
   ],
   "note": ""
  },
  {
   "property": "C40",
   "status": "partial",
   "theorems": [
    "Verif.Text.C40_missing_final_newline_rejected"
   ],
   "note": "the property is false: every such file is refused"
  },
  {
   "property": "C41",
   "status": "proved",
   "theorems": [
    "Verif.Text.C41_lines",
    "Verif.Text.C41_last_line_without_newline",
    "Verif.Text.C41_long_line_split"
   ],
   "note": ""
  },
  {
   "property": "C42",
   "status": "proved",
   "theorems": [
    "Verif.Text.C42_hypothesis_text",
    "Verif.Text.C42_unknown_word_asserts"
   ],
   "note": ""
  },
  {
   "property": "C43",
   "status": "partial",
   "theorems": [
    "Verif.Stt.C43_process_absent",
    "Verif.Stt.C43_process_bad_data",
    "Verif.Stt.C43_process_outcomes",
    "Verif.Stt.C43_end_null_undefined",
    "Verif.Stt.C43_end_absent_partial",
    "Verif.Stt.C43_init_null_undefined",
    "Verif.Stt.C43_init"
   ],
   "note": "ce_stt_process: proved. ce_stt_end_of_stream: false for a null utterance (dereferenced before the check), proved otherwise; ce_utt_init dereferences a null recogniser."
  },
  {
   "property": "C44",
   "status": "proved",
   "theorems": [
    "Verif.Fbank.C44_round_up",
    "Verif.Fbank.C44_overflow",
    "Verif.Fbank.C44_nonpositive",
    "Verif.Fbank.C44_padded_frame"
   ],
   "note": "All 32-bit arguments."
  },
  {
   "property": "C45",
   "status": "proved",
   "theorems": [
    "Verif.Fbank.C45_preemphasis",
    "Verif.Fbank.C45_power_spectrum"
   ],
   "note": "Any arithmetic, any length."
  },
  {
   "property": "C46",
   "status": "proved",
   "theorems": [
    "Verif.Cmvn.C46_normalised",
    "Verif.Cmvn.C46_order",
    "Verif.Cmvn.C46_range"
   ],
   "note": "Exact arithmetic over any ordered field; frames requested in order from 0. Any other request aborts."
  },
  {
   "property": "C47",
   "status": "partial",
   "theorems": [
    "Verif.Quant.C47_error_partial",
    "Verif.Quant.C47_fails",
    "Verif.Quant.C47_constant",
    "Verif.Quant.C47_negative"
   ],
   "note": "Exact arithmetic over any ordered field with floor. Half a step for every matrix whose zero point fits in int32; the step is (hi - lo)/255 where hi is at least 2^-126. C47_fails: entries 10^10 and 10^10+1024 make the conversion of the zero point undefined; C47_constant: so does every constant positive matrix. Rounding of float is not modelled."
  },
  {
   "property": "C48",
   "status": "proved",
   "theorems": [
    "Verif.Srfft.C48_forward",
    "Verif.Srfft.C48_backward",
    "Verif.Srfft.C48_round_trip",
    "Verif.Srfft.C48_complex",
    "Verif.Srfft.C48_documented_size"
   ],
   "note": "Exact arithmetic over the reals, every power of two from 4 on, every signal. C48_documented_size: used as the header comment says, the program aborts."
  },
  {
   "property": "C49",
   "status": "proved",
   "theorems": [
    "Verif.Srfft.C49_bit_reversal",
    "Verif.Srfft.C49_sizes"
   ],
   "note": "Every object the constructor can make, every vector. C49_sizes: the constructor accepts exactly 2^k (k>=2) and, silently, 2^k+1."
  },
  {
   "property": "C50",
   "status": "proved",
   "theorems": [
    "Verif.Nnet.C50_softmax",
    "Verif.Nnet.C50_log_softmax",
    "Verif.Nnet.C50_normalize",
    "Verif.Nnet.C50_overflow",
    "Verif.Nnet.C50_zero_row"
   ],
   "note": "Over the real numbers, for every proper matrix; the normalise layer for rows with a non-zero entry. C50_overflow and C50_zero_row show, in arithmetic where 2^128 overflows, that an input of 89 or more gives NaN (softmax) or minus infinity everywhere (log-softmax), and a zero row NaN. Rounding is not modelled."
  },
  {
   "property": "C51",
   "status": "proved",
   "theorems": [
    "Verif.Mat.C51_product",
    "Verif.Mat.C51_product_exact",
    "Verif.Mat.C51_product_alias",
    "Verif.Mat.C51_product_mismatch",
    "Verif.Mat.C51_transpose",
    "Verif.Mat.C51_transpose_not_square",
    "Verif.Mat.C51_copy",
    "Verif.Mat.C51_copy_overlap",
    "Verif.Mat.C51_copy_transposed",
    "Verif.Mat.C51_resize_copy",
    "Verif.Mat.C51_resize_zero",
    "Verif.Mat.C51_resize_empty",
    "Verif.Mat.C51_resize_no_columns"
   ],
   "note": "Memory-level model (blocks, offsets, strides, freed and unwritten elements). For all dimensions whose offsets fit in int, all strides; operands that share memory with the destination are excluded (C51_product_alias shows why), and a matrix is taken to own its block from its start. cblas_sgemm and gemmlowp are not modelled."
  },
  {
   "property": "C52",
   "status": "partial",
   "theorems": [
    "Verif.Decoder.C52_tokens_leak",
    "Verif.Mdec.C52_memory_leak",
    "Verif.Decoder.C52_active_tokens_allocated_partial"
   ],
   "note": "False of the code: replaced and pruned tokens are never returned to the pool, unboundedly many (counted, and in the pool's memory). Proved: active tokens are allocated."
  },
  {
   "property": "C53",
   "status": "partial",
   "theorems": [
    "Verif.Text.C53_negative_symbol_id_faults",
    "Verif.Text.C53_symbols_partial",
    "Verif.Ser.C53_negative_dim_aborts",
    "Verif.Ser.C53_vector_partial",
    "Verif.Ser.C53_matrix_dims_abort",
    "Verif.Ser.C53_matrix_product_overflows"
   ],
   "note": "False for negative symbol ids and negative vector or matrix dimensions; the partial theorems list all outcomes."
  },
  {
   "property": "C54",
   "status": "proved",
   "theorems": [
    "Verif.Decoder.C54_surviving_path_not_better"
   ],
   "note": "Laws, all of which IEEE 754 satisfies: NaN spreads and is neither smaller nor larger than anything, numbers are totally preordered, addition and conversions are monotone. Assumes that no path has a NaN cost; C85_nan_score_unnoticed is the counterexample otherwise."
  },
  {
   "property": "C55",
   "status": "partial",
   "theorems": [
    "Verif.Fst.C55_lookup_safe_if_index_in_range_partial",
    "Verif.Fst.C55_accepted_file_can_be_unsafe"
   ],
   "note": "False in general: the state index is not validated on load (negation proved). Safety proved under an index-range condition."
  },
  {
   "property": "C56",
   "status": "partial",
   "theorems": [
    "Verif.Text.C56_integer_partial",
    "Verif.Text.C56_malformed_integer_throws",
    "Verif.Text.C56_trailing_garbage_ignored",
    "Verif.Text.C56_int_min_lost"
   ],
   "note": "false for malformed values and for INT_MIN"
  },
  {
   "property": "C57",
   "status": "partial",
   "theorems": [
    "Verif.Text.C57_decimal_partial",
    "Verif.Text.C57_leading_zero_octal"
   ],
   "note": "false for leading zeros"
  },
  {
   "property": "C58",
   "status": "proved",
   "theorems": [
    "Verif.Ser.C58_truncated_network",
    "Verif.Ser.C58_unknown_layer"
   ],
   "note": ""
  },
  {
   "property": "C59",
   "status": "partial",
   "theorems": [
    "Verif.Stt.C59_likelihood_partial",
    "Verif.Stt.C59_no_words",
    "Verif.Stt.C59_stale"
   ],
   "note": "False: with an empty final result the likelihood of an earlier partial hypothesis stays (C59_stale). Proved when the best path has words."
  },
  {
   "property": "C60",
   "status": "proved",
   "theorems": [
    "Verif.Srfft.C60_safe"
   ],
   "note": "Any arithmetic; indices as natural numbers (all below 2^31)."
  },
  {
   "property": "C61",
   "status": "proved",
   "theorems": [
    "Verif.Fbank.C61_filters",
    "Verif.Fbank.C61_partition"
   ],
   "note": "Exact real arithmetic; rounding of float is not modelled."
  },
  {
   "property": "C62",
   "status": "proved",
   "theorems": [
    "Verif.Fbank.C62_hamming"
   ],
   "note": "Exact real arithmetic with the constant of the program."
  },
  {
   "property": "C63",
   "status": "proved",
   "theorems": [
    "Verif.Fbank.C63_log_mel"
   ],
   "note": "Exact real arithmetic; pieces below 536870500 samples and not empty (an empty piece aborts, C27)."
  },
  {
   "property": "C64",
   "status": "partial",
   "theorems": [
    "Verif.Srfft.C64_forward_partial",
    "Verif.Srfft.C64_backward_fails"
   ],
   "note": "False for the backward direction: a too short array is read past its end before the size is checked."
  },
  {
   "property": "C65",
   "status": "proved",
   "theorems": [
    "Verif.App.C65_load"
   ],
   "note": "OpenFst reading is an arbitrary function of the file name; floats are bits, log uninterpreted"
  },
  {
   "property": "C66",
   "status": "partial",
   "theorems": [
    "Verif.App.C66_complete_or_null",
    "Verif.App.C66_no_configuration",
    "Verif.App.C66_missing_partial",
    "Verif.App.C66_malformed_number_throws",
    "Verif.App.C66_negative_prior_aborts"
   ],
   "note": "False of the code for malformed numbers (exception) and negative priors (abort), proved; true when what is there is well formed"
  },
  {
   "property": "C67",
   "status": "partial",
   "theorems": [
    "Verif.App.C67_all_but_one_partial",
    "Verif.App.C67_structure_leaks",
    "Verif.App.C67_destroy_twice",
    "Verif.App.C67_destroy_null",
    "Verif.App.C67_utterance_returns_memory"
   ],
   "note": "False of the code: the ce_stt_t structure is never deleted (one block per ce_stt_init); everything else is given back once"
  },
  {
   "property": "C68",
   "status": "proved",
   "theorems": [
    "Verif.Main.C68_program",
    "Verif.Main.C68_completes",
    "Verif.Main.C68_only_audio",
    "Verif.Main.C68_startup_errors"
   ],
   "note": "Whole program: loading (C65) composed with recognition (C29). Hypotheses: the model directory is installed and well formed (as in C65) and the network fits (as in C29). Float arithmetic, OpenFst graph reading and message texts are parameters. The decoder's tokens and histories are values here; C71 says for which utterances the decoder with its memory gives the same answers."
  },
  {
   "property": "C69",
   "status": "partial",
   "theorems": [
    "Verif.Main.C69_script_partial",
    "Verif.Main.C69_stops",
    "Verif.Main.C69_bad_line",
    "Verif.Main.C69_missing_newline_fails"
   ],
   "note": "Proved for scripts whose lines all end with a newline; false otherwise: all results are written, then a message and exit code 1 (C69_missing_newline_fails)."
  },
  {
   "property": "C70",
   "status": "partial",
   "theorems": [
    "Verif.Main.C70_exact_partial",
    "Verif.Main.C70_rest_is_heard"
   ],
   "note": "False of the code: the declared size is read and ignored, everything to the end of the file is decoded as audio (C70_rest_is_heard). Proved for files that end with their data."
  },
  {
   "property": "C71",
   "status": "partial",
   "theorems": [
    "Verif.Mdec.C71_same_answers_partial",
    "Verif.Mdec.C71_completes_partial",
    "Verif.Mdec.C71_no_stale_mark",
    "Verif.Mdec.C71_answer_is_a_path_partial",
    "Verif.Mdec.C71_words_lost",
    "Verif.Mdec.C71_few_tokens",
    "Verif.Mdec.C71_recogniser_labels"
   ],
   "note": "Decoder with pool, hash table, collected histories and cache, refined to the decoder with values. Proved for all runs in which no collection starts with a stale mark (the fault of C07); this is so in the first twenty frames, and in general while no token has a word at the collections before the last. False in full: 21 frames on a graph with two words are enough for BestPath to read a freed history (C71_words_lost). Completion needs at most 46338 active tokens (beyond that the hash table's size computation may overflow) and ids below 67000000 (the hash functions)."
  },
  {
   "property": "C72",
   "status": "partial",
   "theorems": [
    "Verif.Text.C72_converted_words_rejected",
    "Verif.Text.C72_word_at_offset"
   ],
   "note": "The claim is false for every word list (files below 16 MiB): proved that no such file is accepted. What holds instead is C39: words.txt is read as it is."
  },
  {
   "property": "C73",
   "status": "partial",
   "theorems": [
    "Verif.Tool.C73_same_unigrams",
    "Verif.Tool.C73_same_costs",
    "Verif.Tool.C73_prunes_partial",
    "Verif.Tool.C73_words_only_refused",
    "Verif.Tool.C73_words_only_readable",
    "Verif.Tool.C73_not_twice"
   ],
   "note": "False for files that have words only (C73_words_only_refused); proved for all files that go beyond words, and the output is equivalent whenever there is one."
  },
  {
   "property": "C74",
   "status": "proved",
   "theorems": [
    "Verif.Tool.C74_costs_of_words",
    "Verif.Tool.C74_needs_start",
    "Verif.Tool.C74_unknown_word_refused"
   ],
   "note": "Numbers and their 32 bit form are arbitrary functions; ids are distinct and not negative."
  },
  {
   "property": "C75",
   "status": "proved",
   "theorems": [
    "Verif.Tool.C75_transition_map",
    "Verif.Tool.C75_blank_line_refused",
    "Verif.Tool.C75_large_id_refused",
    "Verif.Tool.C75_plus_sign"
   ],
   "note": "An id without a line gets pdf 0. C75_plus_sign: a plus sign before a number is allowed."
  },
  {
   "property": "C76",
   "status": "partial",
   "theorems": [
    "Verif.Tool.C76_accepted_iff",
    "Verif.Tool.C76_layers",
    "Verif.Tool.C76_computes_partial",
    "Verif.Tool.C76_built",
    "Verif.Tool.C76_scores_partial",
    "Verif.Tool.C76_values_exist",
    "Verif.Tool.C76_files",
    "Verif.Tool.C76_output_ignored",
    "Verif.Tool.C76_output_fails",
    "Verif.Tool.C76_names_fail",
    "Verif.Tool.C76_auxiliary_name_fails",
    "Verif.Tool.C76_minus_refused",
    "Verif.Tool.C76_sizes_unchecked",
    "Verif.Tool.C76_matrices_fit",
    "Verif.Tool.C76_misfit_refused",
    "Verif.Tool.C76_first_matrix_unchecked",
    "Verif.Tool.C76_scalars_only",
    "Verif.Tool.C76_missing_refused"
   ],
   "note": "Proved for every network whose nodes are named as their components, with the last node in place of the output node; false in general: the output node is ignored (witness), names of nodes and components are mixed up (witness), a component named X_splice replaces an auxiliary layer (witness). Arithmetic of the converter exact in C76_computes_partial and C76_scores_partial, arbitrary in the others."
  },
  {
   "property": "C77",
   "status": "partial",
   "theorems": [
    "Verif.Am.C77_noticed_partial",
    "Verif.Am.C77_shift",
    "Verif.Am.C77_shift_fails",
    "Verif.Am.C77_short_batch_fails"
   ],
   "note": "Proved: with a wrong sum of the contexts, batches and an utterance longer than the context of the network, the recogniser stops. False in general: with the right sum nothing is noticed and every score is that of another frame (exact shift for every network, witness); with batches no longer than the context a wrong sum can pass (witness)."
  },
  {
   "property": "C78",
   "status": "proved",
   "theorems": [
    "Verif.Kit.C78_directory",
    "Verif.Kit.Ex.directory"
   ],
   "note": "Composition of C65, C74, C75, C76, C10 over one directory; the satisfiability of its hypotheses is the theorem Ex.directory. The parsing of numbers and rounding are arbitrary functions, the word encoding any injective map. C72: words.txt must not be converted."
  },
  {
   "property": "C79",
   "status": "partial",
   "theorems": [
    "Verif.VecMem.C79_values",
    "Verif.VecMem.C79_refused",
    "Verif.VecMem.C79_given_back_partial",
    "Verif.VecMem.C79_assignment_leaks",
    "Verif.VecMem.C79_size_wraps",
    "Verif.VecMem.C79_matrix_copy_fails"
   ],
   "note": "Proved for all programs except that memory is given back: exactly one block is lost for every move-assignment to a vector that is not empty (the assignment never frees the target's block), so the last part is false of the code (witness C79_assignment_leaks). Sizes in bytes must fit an int (witness C79_size_wraps). Matrix does not forbid copies; a copy leads to a double free (C79_matrix_copy_fails)."
  },
  {
   "property": "C80",
   "status": "proved",
   "theorems": [
    "Verif.CmvnConv.C80_stats",
    "Verif.CmvnConv.C80_only",
    "Verif.CmvnConv.C80_not_a_number",
    "Verif.CmvnConv.C80_shape_unchecked",
    "Verif.CmvnConv.C80_trained_mean"
   ],
   "note": "The regular expression is proved to take exactly the numbers with digits on both sides of the point (isNumber_iff). float() and the packing to four bytes are arbitrary functions. C80_shape_unchecked: the shape of the matrix is not looked at, any 82 numbers are taken. C80_trained_mean composes with C46 in exact arithmetic."
  },
  {
   "property": "C81",
   "status": "partial",
   "theorems": [
    "Verif.Quant.C81_error_partial",
    "Verif.Quant.C81_error_around_zero",
    "Verif.Quant.C81_overflow_fails",
    "Verif.Quant.C81_single_refused",
    "Verif.Quant.C81_padding_fails"
   ],
   "note": "Exact arithmetic. Proved when the sums fit an int32_t (always, with up to 33025 terms, if both matrices have entries on both sides of zero or at zero), the matrices have more than one element and the result has no padding; false otherwise (witnesses). gemmlowp is taken to compute with int32_t as its unpack.h says."
  },
  {
   "property": "C82",
   "status": "proved",
   "theorems": [
    "Verif.Api.C82_alone",
    "Verif.Api.C82_interleave",
    "Verif.Api.C82_next",
    "Verif.Api.C82_orphan",
    "Verif.Api.C82_orphan_feed",
    "Verif.Api.C82_destroyed",
    "Verif.Api.C82_destroy",
    "Verif.Api.C82_memory",
    "Verif.Api.C82_failed",
    "Verif.Api.C82_message",
    "Verif.Api.C82_message_shared"
   ],
   "note": "Model: calls one after the other (no threads), addresses not used again. C82_alone, C82_interleave, C82_next: the property; C82_destroy: destruction in any order; C82_orphan, C82_destroyed: exactly what is undefined after a destruction; C82_memory: what is left allocated (one ce_stt_t per ce_stt_init); C82_message, C82_message_shared: the message."
  },
  {
   "property": "C83",
   "status": "proved",
   "theorems": [
    "Verif.Api.C83_words",
    "Verif.Api.C83_program",
    "Verif.Api.C83_completes"
   ],
   "note": "C82 composed with C29 and C68. C83_completes: when recognition has no fault the program gets the text. Faults on the way (e.g. C23) are outcomes of their own."
  },
  {
   "property": "C84",
   "status": "partial",
   "theorems": [
    "Verif.Loud.C84_results",
    "Verif.Loud.C84_program",
    "Verif.Loud.C84_silent_partial",
    "Verif.Loud.C84_no_begin",
    "Verif.Loud.C84_unknown_word",
    "Verif.Loud.C84_results_not_alone",
    "Verif.Loud.C84_nan_ends"
   ],
   "note": "False of the code: PK_WARN writes to std::cout, so a language model without <s> or without a word of the graph puts warnings between the results (C84_no_begin, C84_unknown_word, C84_results_not_alone). Proved: results and end are those of C68-C70 whatever is said besides; the text is the last line; nothing is said unless the program faults if the language model covers the graph; a NaN warning is followed by a failed assertion."
  },
  {
   "property": "C85",
   "status": "partial",
   "theorems": [
    "Verif.Decoder.C85_answer_rests_on_numbers",
    "Verif.Decoder.C85_frame_without_numbers",
    "Verif.Decoder.C85_nan_score_unnoticed",
    "Verif.Decoder.C85_sample_with_nan_undefined",
    "Verif.Decoder.C85_nan_sample_reached"
   ],
   "note": "False of the code in three ways: a token with a NaN cost holds its state, so a better word is lost while Process returns true (C85_nan_score_unnoticed); a frame of NaN loses what was recognised and leads to undefined behaviour within two frames (C85_frame_without_numbers); a NaN among the costs sampled from a large beam is undefined behaviour in nth_element (C85_sample_with_nan_undefined, reached by C85_nan_sample_reached). Proved for all: an answer that is not empty is what a path of numbers says."
  },
  {
   "property": "C86",
   "status": "partial",
   "theorems": [
    "Verif.Stt.C86_lost_frame_in_decoder",
    "Verif.Stt.C86_lost_frame",
    "Verif.Stt.C86_no_answer",
    "Verif.Stt.C86_overflow_no_answer",
    "Verif.Stt.C86_eighty_nine"
   ],
   "note": "False of the code: an activation of 89 or more before the last log-softmax layer makes every score of the frame minus infinity; with two more frames behind it no run ends without a fault, otherwise the answer is empty. Holds for any arithmetic with the stated laws of infinity and NaN, and for real numbers with overflow at 2^128. Pieces shorter than 536870500 bytes, as for C29."
  },
  {
   "property": "C87",
   "status": "partial",
   "theorems": [
    "Verif.VecMem.C87_values",
    "Verif.VecMem.C87_refused",
    "Verif.VecMem.C87_inside",
    "Verif.VecMem.C87_dangling",
    "Verif.VecMem.C87_overlap",
    "Verif.VecMem.C87_negative",
    "Verif.VecMem.C87_sum_overflows",
    "Verif.VecMem.C87_product_of_overlapping"
   ],
   "note": "The first part holds for all programs that keep to scopes and do not overlap views (C87_values, C87_inside), and ends beyond the end, indices beyond the end and different lengths are refused (C87_refused). The second part is false of the code: origins or lengths below zero, sums that are not an int, overlapping views and views that outlive their vectors are not refused. Vectors of different element types in one operation are not modelled."
  },
  {
   "property": "C88",
   "status": "partial",
   "theorems": [
    "Verif.SttMem.C88_same_answer_partial",
    "Verif.SttMem.C88_completes_partial",
    "Verif.SttMem.C88_short_utterances",
    "Verif.SttMem.C88_words_lost",
    "Verif.SttMem.C88_refused"
   ],
   "note": "False of the code: with some models every audio of 21 frames or more makes the interface read a collected word history (C88_words_lost). As long as no collection starts with a stale mark, and always for at most 20 frames, the interface with the decoder's memory answers what the interface with values answers (C88_same_answer_partial, C88_completes_partial, C88_short_utterances), so that C29, C42, C54 and C68 hold of it. C88_refused: null data or a size that is not positive is refused with -1 and changes nothing."
  },
  {
   "property": "C89",
   "status": "partial",
   "theorems": [
    "Verif.Msg.C89_same",
    "Verif.Msg.C89_success_keeps_text",
    "Verif.Msg.C89_no_configuration",
    "Verif.Msg.C89_bad_line",
    "Verif.Msg.C89_empty_value_hides_line",
    "Verif.Msg.C89_report_partial",
    "Verif.Msg.C89_missing_is_named",
    "Verif.Msg.C89_configuration_not_named",
    "Verif.Msg.C89_file_not_named"
   ],
   "note": "Every text of a failed ce_stt_init is that of a true cause, and what is missing is named. False of the code: the texts for fst, symbol_table and original_lm end without the name of the configuration, a value that is empty hides its line, and five texts name no file."
  },
  {
   "property": "C90",
   "status": "partial",
   "theorems": [
    "Verif.Msg.C90_same",
    "Verif.Msg.C90_last_error_partial",
    "Verif.Msg.C90_in_full",
    "Verif.Msg.C90_alignment_not_shown"
   ],
   "note": "For all programs the text is that of the last call that failed, its cause is true of the arguments, and it is shown in full for all calls but ce_stt_init. False of the code: for a wrong block alignment the text shows the byte rate as what was found, and a tag with braces loses them."
  },
  {
   "property": "C91",
   "status": "partial",
   "theorems": [
    "Verif.Tell.C91_same",
    "Verif.Tell.C91_usage",
    "Verif.Tell.C91_one_file_partial",
    "Verif.Tell.C91_script",
    "Verif.Tell.C91_script_missing",
    "Verif.Tell.C91_script_line",
    "Verif.Tell.C91_script_end",
    "Verif.Tell.C91_audio_not_named"
   ],
   "note": "The bytes of the output are given for all arguments, files and scripts, and the causes are true. False of the code: an audio file that is refused because of its header or format is not named, so in a script with many lines it cannot be told which file failed (C91_audio_not_named)."
  },
  {
   "property": "C92",
   "status": "partial",
   "theorems": [
    "Verif.Hclg.C92_round_trip",
    "Verif.Hclg.C92_same_or_refused",
    "Verif.Hclg.C92_cut",
    "Verif.Hclg.C92_cut_exact",
    "Verif.Hclg.C92_accepted",
    "Verif.Hclg.C92_unchecked",
    "Verif.Hclg.C92_outside_ub",
    "Verif.Hclg.C92_states_throw",
    "Verif.Hclg.C92_arcs_overrun"
   ],
   "note": "Proved: the round trip for all graphs, tables and alignments; no file that was cut off is accepted, and what is left of any accepted file never gives another graph; only files of the right types are accepted. False of the code: a file cut inside of the names of its types copies a character that is not initialised (C92_cut_exact tells exactly which); the contents of an accepted file are not checked (C92_unchecked, C92_outside_ub); wrong numbers of states or arcs end in an exception that nobody catches or in writing behind a block (C92_states_throw, C92_arcs_overrun)."
  },
  {
   "property": "C93",
   "status": "partial",
   "theorems": [
    "Verif.Look.C93_same",
    "Verif.Look.C93_file",
    "Verif.Look.C93_start_outside",
    "Verif.Look.C93_no_start",
    "Verif.Look.C93_arc_outside"
   ],
   "note": "Proved for all graphs whose start state exists and whose arcs lead to states: answers and faults are those of the graph that was written, for all sequences of calls. The last sentence is false of the code: no file is refused for its states; a start state outside or an arc that leads outside is undefined behaviour when it is used, and a graph with no start state is an assertion at the first use (C93_start_outside, C93_arc_outside, C93_no_start)."
  },
  {
   "property": "C94",
   "status": "partial",
   "theorems": [
    "Verif.Chartok.C94_output",
    "Verif.Chartok.C94_last_line",
    "Verif.Chartok.C94_letters",
    "Verif.Chartok.C94_twice",
    "Verif.Chartok.C94_segmentation",
    "Verif.Chartok.C94_brackets_matter"
   ],
   "note": "Proved for all texts, except that the last part needs that no word is one that is kept: the expressions match inside of a word, so a[b] and a[ b] are scored differently (C94_brackets_matter). Text that is not UTF-8 is not modelled."
  },
  {
   "property": "C95",
   "status": "partial",
   "theorems": [
    "Verif.Decoder.Beam.C95_kept",
    "Verif.Decoder.Beam.C95_answer",
    "Verif.Decoder.Beam.C95_cheapest_partial",
    "Verif.Decoder.Beam.C95_few",
    "Verif.Decoder.Beam.C95_search_error",
    "Verif.Decoder.Beam.C95_alive",
    "Verif.Main.C95_program_partial",
    "Verif.Disk.C97_cheapest_partial"
   ],
   "note": "Without the condition the claim is false: the cheapest path is lost if it is more than the beam above another one for a time (C95_search_error). Not covered: more than 30000 active tokens, where the cutoff is that of a random sample. C95_alive: where sums stay finite, a path in the beam over all frames means that no frame is refused, so Alive need not be asked for."
  },
  {
   "property": "C96",
   "status": "partial",
   "theorems": [
    "Verif.Stt.C96_shown",
    "Verif.Stt.C96_live",
    "Verif.Stt.C96_pieces",
    "Verif.Stt.C96_final_cost"
   ],
   "note": "Text, return values and lag proved; C96_live is for streams all frames of which are reported as processed, C96_shown for all. The likelihood shown before the end is false: it includes the cost of ending (C96_final_cost). Pieces of 536870500 bytes or more not covered, as in C29."
  },
  {
   "property": "C97",
   "status": "proved",
   "theorems": [
    "Verif.Disk.C97_line"
   ],
   "note": "Every file is bytes, the decoding graph included. The hypotheses on the machine are those of C68, and that graphs are read from files and looked up as in C92 wherever this is defined. With the cheapest path: Verif.Disk.C97_cheapest_partial, listed at C95."
  },
  {
   "property": "C98",
   "status": "partial",
   "theorems": [
    "Verif.Ieee.C98_machine_laws",
    "Verif.Ieee.C98_path_cost",
    "Verif.Ieee.C98_answer",
    "Verif.Ieee.C98_words_partial",
    "Verif.Ieee.C98_program_partial",
    "Verif.Ieee.C98_rounding_error"
   ],
   "note": "All of the statement is proved; partial because what one would like (the answer is exactly the cheapest path, ExactlyBest) is false: C98_rounding_error. Restricted to frames with at most 30000 active tokens as C95. One zero instead of two, which no comparison or sum of the decoder can tell apart."
  },
  {
   "property": "C99",
   "status": "partial",
   "theorems": [
    "Verif.Ieee.C99_constructed",
    "Verif.Ieee.C99_finite",
    "Verif.Ieee.C99_feed_partial"
   ],
   "note": "Missing: pieces of 536870500 samples or more, as in C27. What is asked of the C library is LibLaws; one that meets it is constructed (someLib_laws)."
  }
 ]
}
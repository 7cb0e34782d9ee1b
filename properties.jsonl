{"id": "C01", "title": "Hash table behaves as a map", "statement": "For every sequence of Insert, Find and Clear calls on a hash table that runs without a fault, each Find(k, d) returns the value of the last Insert(k, v) since the last Clear, or d when there was none; automatic growth is invisible.", "quantifier": "every key type, every hash function into int, every initial capacity, every finite history of Insert/Find/Clear", "why_tests_cant": "collision patterns, probe orders and growth points are unbounded; a test fixes one hash function and a handful of keys", "anchors": ["src/hashtable.h: HashTable::Insert, Find, Clear, Lookup, ExtendBuckets", "src/hashtable.cc: gPrimeNumbers"]}
{"id": "C02", "title": "Insert and lookup of hash table always finish below the load bound", "statement": "Insert and Find never hit the probe-limit assertion, signed overflow or an out-of-bounds bucket as long as the number of stored keys is below an explicit bound computed from the bucket count; in particular the decoder's table (initial capacity 120000) is safe for every set of fewer than 46000 states, whatever their hashes.", "quantifier": "every prime bucket count of the table, every set of stored keys, every key looked up, every hash function", "why_tests_cant": "whether +-i*i probing reaches a free slot is a number-theoretic fact about all residues; sampling keys cannot show the absence of a bad cluster", "anchors": ["src/hashtable.h: HashTable::Lookup, Insert, Find", "src/hashtable.cc: gPrimeNumbers", "src/decoder.cc: Decoder::Decoder"]}
{"id": "C03", "title": "Finding an absent key always terminates", "statement": "Find(k, d) returns d for a key that was never inserted, for every table reachable through the public API. (Expected to FAIL: with bucket count p = 1 mod 4 and (p+1)/2 keys the probe sequence may contain no free slot; with initial capacity at most 2 the third Insert never finishes.)", "quantifier": "every reachable table and every absent key", "why_tests_cant": "needs the adversarial choice of keys that fill exactly the probed half of the buckets", "anchors": ["src/hashtable.h: HashTable::Lookup, Find, Insert, ExtendBuckets"]}
{"id": "C04", "title": "Pool never hands out live memory", "statement": "Alloc returns a slot inside an allocated block that is not currently live; slots live at the same time are pairwise distinct and stay where they are until deallocated.", "quantifier": "every block size, every history of Alloc, Dealloc of a live object and Clear", "why_tests_cant": "aliasing shows only on particular interleavings of allocation, recycling and Clear", "anchors": ["src/pool.h: Pool::Alloc, Dealloc, Clear"]}
{"id": "C05", "title": "Pool accounting", "statement": "allocated_nodes() is the number of live objects and free_nodes() + allocated_nodes() is the total slot count of the blocks, after every operation.", "quantifier": "every block size and every history of Alloc, Dealloc of live objects and Clear", "why_tests_cant": "a test checks a counter after a fixed script only", "anchors": ["src/pool.h: Pool::allocated_nodes, free_nodes, Alloc, Dealloc, Clear"]}
{"id": "C06", "title": "Destroying a pool destroys every live object once", "statement": "Clear() and the pool destructor run the destructor of each live object exactly once and of nothing else. (Expected to FAIL when a pool owning two or more blocks was cleared before: objects that no longer exist are destroyed again.)", "quantifier": "every history of Alloc, Dealloc, Clear followed by destruction", "why_tests_cant": "double destruction is undefined behaviour and depends on the number of blocks left from an earlier epoch", "anchors": ["src/pool.h: Pool::Clear, ~Pool"]}
{"id": "C07", "title": "Garbage collection never frees a reachable word-history node", "statement": "After GC(roots) every node reachable from the roots through previous links is still allocated with unchanged label and predecessor. (Expected to FAIL when the most recently bump-allocated node carries a mark from an earlier collection.)", "quantifier": "every heap of linked nodes, every root set, every history of allocations and collections", "why_tests_cant": "depends on the mark left in one slot by an earlier collection and on where later allocations came from", "anchors": ["src/pool.h: GCPool::GC, Collectable", "src/decoder.cc: Decoder::OLabel::OnCollect, Decoder::Process"]}
{"id": "C08", "title": "Garbage collection frees everything unreachable", "statement": "After GC(roots) every node that was allocated and is not reachable from the roots is on the free list, except possibly the most recently bump-allocated one, and nothing is put on the free list twice.", "quantifier": "every heap, every root set", "why_tests_cant": "one test heap says nothing about other reachability shapes", "anchors": ["src/pool.h: GCPool::GC, GCPool::Dealloc"]}
{"id": "C09", "title": "Word-history links stay well formed under sharing and collection", "statement": "At all times the successor entry of a history node for label w, if present, is an allocated node whose label is w and whose predecessor is that node, so extending a history by w twice yields the same node.", "quantifier": "every history of extensions and collections satisfying the collection precondition", "why_tests_cant": "weak links must be erased by every collection order; a test sees one order", "anchors": ["src/decoder.h: Decoder::OLabel", "src/decoder.cc: Decoder::OLabel::OnCollect, Decoder::InsertTok", "src/pool.h: GCPool::GC"]}
{"id": "C10", "title": "LM/FST file written by the converter is read back exactly", "statement": "Reading the file written by convert_fstfmt.py yields OK, the same start state, the same final weights and, for each state, exactly the arcs of that state ordered by input label (ties in original order).", "quantifier": "every transducer with at least one state and one arc whose numbers fit the 32-bit fields", "why_tests_cant": "round trip over all transducers, including states without arcs in every position", "anchors": ["tool/convert_fstfmt.py", "src/fst.cc: Fst::Read, CountArcs, IterateArcs, ArcIterator::Next"]}
{"id": "C11", "title": "FST reader rejects damaged files", "statement": "Fst::Read returns a non-OK status for every file that is a proper prefix of a valid file, has a wrong section name or a section size inconsistent with its counts, and never reads past the end.", "quantifier": "every byte string", "why_tests_cant": "every truncation point and every inconsistent header", "anchors": ["src/fst.cc: Fst::Read", "src/util.cc: ReadableFile::Read, ReadAndVerifyString"]}
{"id": "C12", "title": "Arc lookup finds the arc", "statement": "GetArc(s, l) on a converted FST returns true exactly when state s has an arc with input label l, and then returns the first such arc; all memory accesses are inside the arc array.", "quantifier": "every converted transducer, every state, every label", "why_tests_cant": "binary search boundaries for all array lengths and positions", "anchors": ["src/fst.cc: Fst::GetArc, Fst::CountArcs"]}
{"id": "C13", "title": "Backoff language model lookup", "statement": "LmFst::GetArc(s, w) returns the arc for w of the first state along the backoff chain of s that has one, with the backoff weights added innermost first, and false when the chain ends without one; Final(s) is the analogous backed-off final weight. It terminates whenever the backoff chain is finite.", "quantifier": "every language model with finite backoff chains, every state and word", "why_tests_cant": "chain depth is unbounded", "anchors": ["src/fst.cc: LmFst::GetArc, LmFst::Final, LmFst::GetBackoffArc"]}
{"id": "C14", "title": "Unigram bucket is transparent", "statement": "For state 0 the direct-indexed table gives the same answer as the search through the arcs, for every word, whenever the arcs of state 0 have distinct non-negative labels.", "quantifier": "every LM with distinct labels at state 0, every label", "why_tests_cant": "table holes, last label and out-of-range labels cannot be enumerated", "anchors": ["src/fst.cc: LmFst::InitBucket0, LmFst::GetArc"]}
{"id": "C15", "title": "LM arc cache is transparent", "statement": "Any sequence of GetArc/Final calls through the cache returns exactly what the uncached FST returns, for any cache size and whatever collisions occur.", "quantifier": "every cache size > 0, every underlying FST that returns arcs carrying the queried label, every call history", "why_tests_cant": "stale-entry bugs need the right collision history", "anchors": ["src/fst.cc: CachedFst::GetArc, CachedFst::Final", "src/fst.h: CachedFst::Hash"]}
{"id": "C16", "title": "Delta LM scores", "statement": "The score difference returned by the delta LM for word w in state s is the big LM's backed-off weight minus the small LM's unigram score of w, the destination state is the big LM's; the start state is the one reached by <s>.", "quantifier": "every LM pair, state and word", "why_tests_cant": "composition with backoff over all chains", "anchors": ["src/fst.cc: DeltaLmFst::GetArc, StartState, Final"]}
{"id": "C17", "title": "One token per search state", "statement": "After initialisation and after every frame, the active tokens have pairwise distinct states and the state index maps each state to its own token.", "quantifier": "every decoding graph, every LM, every sequence of acoustic score frames", "why_tests_cant": "holds across replace/insert interleavings of all graphs", "anchors": ["src/decoder.cc: Decoder::InsertTok, ProcessEmitting, ProcessNonemitting, Initialize"]}
{"id": "C18", "title": "Every hypothesis is a real path", "statement": "Each active token after t frames corresponds to a path of the graph from the start state that consumes exactly t emitting arcs; its cost is the sum the code accumulates along this path and its history is exactly the path's non-zero output labels. BestPath returns the labels of such a path.", "quantifier": "every graph, LM, frame sequence and beam outcome, any rounding of the arithmetic", "why_tests_cant": "all paths of all graphs; a decoder test checks one utterance", "anchors": ["src/decoder.cc: Decoder::Process, ProcessEmitting, ProcessNonemitting, InsertTok, BestPath, PropogateLm"]}
{"id": "C19", "title": "Best path selects a minimum", "statement": "BestPath picks a token whose cost (plus final costs at end of stream) is not larger than that of any other active token; with no finite-cost token it returns an empty hypothesis.", "quantifier": "every token list", "why_tests_cant": "argmin over all lists with ties and infinities", "anchors": ["src/decoder.cc: Decoder::BestPath"]}
{"id": "C20", "title": "Reported hypothesis weight counts the final cost once", "statement": "The weight reported at the end of stream equals the path cost plus the graph's final cost once. (Expected to FAIL: the final cost is added a second time.)", "quantifier": "every graph and end-of-stream decoding", "why_tests_cant": "needs a graph with non-zero final cost", "anchors": ["src/decoder.cc: Decoder::BestPath"]}
{"id": "C21", "title": "Pruning never drops the best token", "statement": "The cutoff computed for a frame is never below the best token's cost, so the best token is always expanded.", "quantifier": "every token list of any size, any rounding that is monotone", "why_tests_cant": "sampling branch is taken only above 30000 tokens", "anchors": ["src/decoder.cc: Decoder::GetCutoff"]}
{"id": "C22", "title": "Cutoff sampling never indexes an empty sample", "statement": "When more than 30000 tokens are active the pseudo-random sample is non-empty and the chosen index is inside it.", "quantifier": "every token count above 30000", "why_tests_cant": "depends on the generator over all lengths", "anchors": ["src/decoder.cc: Decoder::GetCutoff"]}
{"id": "C23", "title": "A dead beam is survivable", "statement": "Feeding further frames after Process() returned false is safe. (Expected to FAIL: the next frame reads element 0 of an empty token array, and ce_stt_process ignores the false.)", "quantifier": "every history of frames", "why_tests_cant": "needs a graph in which the beam dies", "anchors": ["src/decoder.cc: Decoder::Process, GetCutoff", "src/ce_stt.cc: ce_stt_process"]}
{"id": "C24", "title": "Decoder can be re-initialised", "statement": "Initialize() brings a used decoder to the state of a fresh one. (Expected to FAIL: the state index is not cleared, the next insertion uses a stale index.)", "quantifier": "every history of frames followed by Initialize", "why_tests_cant": "requires a second utterance on the same decoder", "anchors": ["src/decoder.cc: Decoder::Initialize, InsertTok"]}
{"id": "C25", "title": "PCM decoding is independent of chunking", "statement": "For any way of cutting a byte stream into non-empty chunks, the concatenated samples returned by the wave reader equal the decoding of the whole stream: floor(n/b) samples, each the little-endian signed value of its b bytes.", "quantifier": "every byte string, every chunking, 8/16/32 bit formats", "why_tests_cant": "exponentially many chunkings, including cuts inside a sample", "anchors": ["src/pcm_reader.cc: WaveReader::Process, SetFormat", "src/pcm_reader.h: WaveReader"]}
{"id": "C26", "title": "PCM header acceptance", "statement": "ReadPcmHeader accepts exactly the 44-byte headers satisfying the documented field constraints, returns their fields, and leaves the file at byte 44.", "quantifier": "every byte string", "why_tests_cant": "2^352 headers", "anchors": ["src/pcm_reader.cc: ReadPcmHeader, Read16kPcm"]}
{"id": "C27", "title": "Feature extraction is independent of chunking", "statement": "For any chunking of the samples the concatenated feature rows equal those computed from the whole signal: frame i is the feature of samples [160i, 160i+400) and there are floor((n-400)/160)+1 of them for n >= 400, none otherwise.", "quantifier": "every sample sequence, every chunking into non-empty pieces", "why_tests_cant": "all cut positions relative to frame boundaries", "anchors": ["src/fbank.cc: Fbank::Process, CalcNumFrames, ExtractWindow"]}
{"id": "C28", "title": "Acoustic scoring is independent of batching", "statement": "After n >= 1 feature frames and end of stream the acoustic model has produced exactly n score rows, row t being the network applied to frames t-L..t+R with the first/last frame repeated at the edges, for any batch size.", "quantifier": "every frame count, contexts L,R, batch size >= 1, any network of splice/narrow/row-wise layers", "why_tests_cant": "all batch boundaries and edge paddings", "anchors": ["src/am.cc: AcousticModel::Process, EndOfStream, ComputeBatch, BatchAvailable, AppendFrame", "src/nnet.cc: SpliceLayer::Propagate, NarrowLayer::Propagate"]}
{"id": "C29", "title": "Whole recogniser is independent of how audio is fed", "statement": "Two feedings of the same byte stream with different chunk boundaries end with the same hypothesis text, the same number of decoded frames and the same decoder state.", "quantifier": "every byte stream, every chunking into non-empty chunks, every model", "why_tests_cant": "end-to-end over all chunkings", "anchors": ["src/ce_stt.cc: ce_stt_process, ce_stt_end_of_stream", "src/pcm_reader.cc", "src/fbank.cc", "src/am.cc", "src/decoder.cc"]}
{"id": "C30", "title": "Splice/narrow context arithmetic", "statement": "For a network produced by convert_am.py the output row t depends only on input rows t..t+L+R, the number of output rows is rows - L - R, and clamped (edge) rows never reach the output.", "quantifier": "every list of layers, every input with more rows than L+R", "why_tests_cant": "all layer stacks and index sets", "anchors": ["src/nnet.cc: SpliceLayer::Propagate, NarrowLayer::Propagate, Nnet::Propagate", "tool/convert_am.py"]}
{"id": "C31", "title": "Vector and matrix files round trip", "statement": "Reading what the python writers wrote returns the same vector or matrix and leaves the file just after it; a vector whose declared size disagrees is rejected.", "quantifier": "every non-empty vector/matrix and every continuation of the file", "why_tests_cant": "all dimensions and contents", "anchors": ["src/vector.cc: Vector::Read", "src/matrix.cc: Matrix::Read", "tool/convert_am.py: write_vector, write_matrix"]}
{"id": "C32", "title": "Truncated matrix is rejected", "statement": "Matrix::Read returns non-OK for a truncated file. (Expected to FAIL: the status of every row read is dropped, missing rows are silently copies of an earlier one.)", "quantifier": "every truncation point", "why_tests_cant": "each cut position behaves differently", "anchors": ["src/matrix.cc: Matrix::Read"]}
{"id": "C33", "title": "Neural network file round trip", "statement": "Nnet::Read on the file written by convert_am.py returns OK and the same list of layers.", "quantifier": "every list of layers expressible by the converter", "why_tests_cant": "all layer stacks", "anchors": ["src/nnet.cc: Nnet::Read, ReadLayer, LinearLayer::Read, SpliceLayer::Read, BatchNormLayer::Read, NarrowLayer::Read", "tool/convert_am.py"]}
{"id": "C34", "title": "Trim", "statement": "Trim returns the unique substring without leading and trailing white space whose surroundings are white space; it is idempotent.", "quantifier": "every byte string", "why_tests_cant": "all strings", "anchors": ["src/util.cc: Trim"]}
{"id": "C35", "title": "Split", "statement": "Splitting by a non-empty separator gives fields free of the separator whose join is the input, up to one dropped trailing empty field; with an empty separator the function does not terminate.", "quantifier": "every string and separator", "why_tests_cant": "overlapping separators, separators at either end", "anchors": ["src/util.cc: Split"]}
{"id": "C36", "title": "Format substitutes arguments positionally", "statement": "Format(fmt, a1..an) replaces the i-th {} by ai. (Holds when the pieces and arguments contain no braces; expected to FAIL otherwise: an argument containing {} captures the next argument.)", "quantifier": "every format string and argument list", "why_tests_cant": "adversarial argument contents, e.g. file names", "anchors": ["src/util.h: util::Format, FormatImpl"]}
{"id": "C37", "title": "strlcpy", "statement": "strlcpy(dst, src, n) writes at most n bytes, for n > 0 leaves dst NUL-terminated holding the longest prefix of src of length < n, and returns strlen(src); bytes beyond are untouched.", "quantifier": "every source string, destination content and size", "why_tests_cant": "all sizes around the boundary", "anchors": ["src/strlcpy.cc: pasco_strlcpy"]}
{"id": "C38", "title": "Configuration lookup", "statement": "After reading a well-formed configuration, a key looked up in any letter case yields the value of its last definition, comments and blank lines are ignored, keys not defined yield the default; relative paths are resolved against the directory of the configuration file, absolute ones are returned as they are.", "quantifier": "every configuration text and key", "why_tests_cant": "all texts", "anchors": ["src/configuration.cc: Configuration::Read, GetStringOrElse, GetPathOrElse, GetIntegerOrElse", "src/configuration.h"]}
{"id": "C39", "title": "Symbol table is consistent", "statement": "After a successful read, Get(id) is the word of the last line with this id and GetId(word) the id of the last line with this word (or -1); every non-negative id below the table size can be looked up without a fault.", "quantifier": "every symbol file", "why_tests_cant": "all files, gaps and duplicates", "anchors": ["src/symbol_table.cc: SymbolTable::Read, Get, GetId"]}
{"id": "C40", "title": "A symbol file without final newline is accepted", "statement": "A symbol table whose last line lacks the newline reads like the one with it. (Expected to FAIL: IOError.)", "quantifier": "every symbol file", "why_tests_cant": "end-of-file flag protocol over all contents", "anchors": ["src/util.cc: ReadableFile::ReadLine", "src/symbol_table.cc: SymbolTable::Read", "src/main.cc: process_scp"]}
{"id": "C41", "title": "Line reading", "statement": "Reading lines until false yields the lines of the file in order, without their line ends, for files whose lines are shorter than 4095 bytes, contain no NUL and end with a newline.", "quantifier": "every such file", "why_tests_cant": "all files; buffer boundary", "anchors": ["src/util.cc: ReadableFile::ReadLine"]}
{"id": "C42", "title": "Hypothesis text", "statement": "The text returned for a hypothesis is its words in spoken order joined by single spaces, NUL-terminated, in a buffer of exactly the needed size.", "quantifier": "every word list and symbol table", "why_tests_cant": "buffer arithmetic for all lengths", "anchors": ["src/ce_stt.cc: StoreHypText", "src/strlcpy.cc"]}
{"id": "C43", "title": "API error behaviour", "statement": "ce_stt_process with null/absent arguments or a non-positive size reports failure without changing the utterance; ce_stt_end_of_stream does likewise. (The second part is expected to FAIL for a null utterance: it is dereferenced before the check.)", "quantifier": "every argument combination and utterance state", "why_tests_cant": "null dereference is undefined behaviour; all states", "anchors": ["src/ce_stt.cc: CheckParamUtt, ce_stt_process, ce_stt_end_of_stream"]}
{"id": "C44", "title": "Power-of-two rounding", "statement": "RoundUpToNearestPowerOfTwo(n) is the least power of two not below n for 1 <= n <= 2^30 and overflows above.", "quantifier": "every 32-bit n", "why_tests_cant": "2^31 inputs", "anchors": ["src/fbank.cc: Fbank::RoundUpToNearestPowerOfTwo"]}
{"id": "C45", "title": "In-place spectrum and pre-emphasis", "statement": "Computing the power spectrum and the pre-emphasis in place gives the same values as computing them out of place from the original data.", "quantifier": "every window of even length, any arithmetic", "why_tests_cant": "aliasing order over all lengths", "anchors": ["src/fbank.cc: Fbank::ComputePowerSpectrum, ProcessWindow"]}
{"id": "C46", "title": "Sliding-window normalisation", "statement": "Frames requested in order are normalised with the statistics of the last at most 600 frames, smoothed with at most 200 global frames; incremental update equals recomputation (exact arithmetic).", "quantifier": "every feature matrix and global statistics", "why_tests_cant": "window wrap-around for all lengths", "anchors": ["src/cmvn.cc: CMVN::ComputeStats, SmoothStats, Apply, GetFrame"]}
{"id": "C47", "title": "Eight-bit quantisation error", "statement": "For every matrix with max > min each entry is recovered from its quantised value within half a quantisation step (exact arithmetic).", "quantifier": "every matrix and entry", "why_tests_cant": "continuum of values, clamping at both ends", "anchors": ["src/matrix.cc: FindMinMax, ComputeQuantizationParams, Quantize"]}
{"id": "C48", "title": "FFT computes the Fourier transform", "statement": "The complex and real FFT return the discrete Fourier transform in the documented packing, for every power-of-two length (exact arithmetic).", "quantifier": "every length 2^k and every input vector", "why_tests_cant": "all lengths and inputs; a test checks samples", "anchors": ["src/srfft.cc: SRFFT::ComputeTable, ComplexfftComputeRecursive, BitReversePermute, ComplexFFTCompute, Compute"]}
{"id": "C49", "title": "Bit reversal", "statement": "The bit-reversal step permutes element i to the position obtained by reversing the bits of i, for every length 2^k; it is an involution.", "quantifier": "every length 2^k and every vector", "why_tests_cant": "all lengths", "anchors": ["src/srfft.cc: SRFFT::ComputeTable, BitReversePermute"]}
{"id": "C50", "title": "Softmax layers are normalised", "statement": "Each softmax output row is positive and sums to one, log-softmax is its logarithm, and the normalise layer yields rows of mean square one (exact arithmetic, non-degenerate rows).", "quantifier": "every non-empty row", "why_tests_cant": "continuum of inputs", "anchors": ["src/vector.cc: Vector::ApplySoftMax, ApplyLogSoftMax", "src/nnet.cc: SoftmaxLayer, LogSoftmaxLayer, NormalizeLayer"]}
{"id": "C51", "title": "Matrix operations", "statement": "SimpleMatMat leaves the matrix product of A and B in C; Transpose (square matrices) and CopyFromMat with kTrans move element (i,j) to (j,i); CopyFromMat copies; Resize with copying keeps the common part and zeroes the rest. None of them touches memory outside the destination, whatever the strides.", "quantifier": "all dimensions and contents", "why_tests_cant": "all shapes, stride paddings", "anchors": ["src/matrix.cc: SimpleMatMat, Matrix::Transpose, CopyFromMat, Resize"]}
{"id": "C52", "title": "Replaced and pruned tokens are recycled", "statement": "After every frame the number of allocated tokens equals the number of active tokens. (Expected to FAIL: a replaced or pruned token is never returned to the pool.)", "quantifier": "every graph and frame sequence", "why_tests_cant": "leak shows only as growth over long runs", "anchors": ["src/decoder.cc: Decoder::InsertTok, ProcessEmitting"]}
{"id": "C53", "title": "Malformed numbers never corrupt memory", "statement": "Reading a vector with a negative dimension or a symbol table with a negative id gives a non-OK status. (Expected to FAIL: dimension -1 with section size 0 passes the check and aborts; id -1 writes before the array.)", "quantifier": "every file", "why_tests_cant": "adversarial header values", "anchors": ["src/vector.cc: Vector::Read", "src/symbol_table.cc: SymbolTable::Read"]}
{"id": "C54", "title": "Viterbi optimality without pruning loss", "statement": "If a path survives every cutoff, the token of its end state costs no more than the path, for any arithmetic whose addition and conversions are monotone on numbers and which may have NaN, as long as no path has a cost that is NaN.", "quantifier": "every graph, LM, frame sequence and surviving path", "why_tests_cant": "all paths", "anchors": ["src/decoder.cc: ProcessEmitting, ProcessNonemitting, InsertTok"]}
{"id": "C55", "title": "Lookups in a loaded FST stay inside its arrays", "statement": "After Fst::Read has returned OK, GetArc(s, l) for any state s of the FST reads only inside the loaded arrays.", "quantifier": "every file accepted by Fst::Read, every state and label", "why_tests_cant": "Test files are written by the converter; the property concerns every byte string the reader accepts.", "anchors": ["src/fst.cc: Fst::Read, Fst::CountArcs, Fst::GetArc"]}
{"id": "C56", "title": "Integer values in a configuration", "statement": "GetInteger returns the value of a key written as a decimal int, and an error status for a value that is no int. (Expected to FAIL: a malformed value throws out of the C API, trailing garbage is ignored, INT_MIN is reported missing.)", "quantifier": "every configuration and key", "why_tests_cant": "all possible values", "anchors": ["src/configuration.cc: GetIntegerOrElse", "src/configuration.h: GetInteger"]}
{"id": "C57", "title": "Symbol ids are decimal numbers", "statement": "The id of a symbol line is read as the decimal number it is written as. (Expected to FAIL for leading zeros: strtol with base 0 reads octal.)", "quantifier": "every digit string", "why_tests_cant": "all digit strings", "anchors": ["src/util.cc: StringToLong", "src/symbol_table.cc: SymbolTable::Read"]}
{"id": "C58", "title": "Truncated network file is rejected", "statement": "Nnet::Read returns a non-OK status for every proper prefix of a file written by convert_am.py, and for an unknown layer type.", "quantifier": "every network the converter can write and every cut position", "why_tests_cant": "the status of matrix rows is dropped, so that rejection depends on what follows each matrix; all layer stacks and cuts", "anchors": ["src/nnet.cc: Nnet::Read, ReadLayer", "src/matrix.cc: Matrix::Read", "tool/convert_am.py: AM.write"]}
{"id": "C59", "title": "Reported likelihood belongs to the reported hypothesis", "statement": "After ce_stt_end_of_stream, loglikelihood_per_frame is determined by the final best path: it is the weight of that path divided by the number of decoded frames, and for an empty result it does not depend on what an earlier partial hypothesis was. (Expected to FAIL: StoreHypText only stores the likelihood together with a non-empty text.)", "quantifier": "every model, every utterance and chunking", "why_tests_cant": "needs an utterance whose partial result disappears at the end; universally quantified over models", "anchors": ["src/ce_stt.cc: StoreHypText, ce_stt_end_of_stream"]}
{"id": "C60", "title": "The FFT is safe and reproducible in any arithmetic", "statement": "SRFFT::Compute, given an array of the object's size and a buffer of at least half that size, reads and writes only these two arrays, keeps their sizes, and leaves data that are a function of the data passed in: what the (uninitialised) buffer contains never matters. No assumption on the arithmetic: it holds with rounding, infinities and NaN.", "quantifier": "every arithmetic, every power of two, every data and buffer content, both directions", "why_tests_cant": "an uninitialised read shows up only for particular garbage; in-place index arithmetic over all sizes", "anchors": ["src/srfft.cc: SRFFT::Compute, ComplexFFTCompute, ComplexfftComputeRecursive, BitReversePermute", "src/fbank.cc: Fbank::Process"]}
{"id": "C61", "title": "Mel filters are triangles that cover the band", "statement": "The filter bank built by the constructor consists of 40 filters, equally spaced on the mel scale between 20 Hz and 8000 Hz; filter b has at FFT bin i the value of the triangle with corners b, b+1, b+2, nothing else, no filter is empty, and between the first and the last centre the weights of every bin add up to one (exact arithmetic).", "quantifier": "every filter and every FFT bin", "why_tests_cant": "identity with a real-valued specification; the constructor aborts if a single filter has fewer than two bins", "anchors": ["src/fbank.cc: Melbanks::Melbanks", "src/fbank.h: MelScale"]}
{"id": "C62", "title": "Hamming window", "statement": "The analysis window has 400 values between 0.08 and 1, equal to the Hamming window up to 1e-12 and symmetric up to 2e-12 (exact arithmetic with the program's constant for twice pi).", "quantifier": "every index", "why_tests_cant": "inequalities over real numbers", "anchors": ["src/fbank.cc: Fbank::HammingWindowInit"]}
{"id": "C63", "title": "Features are log mel energies of the Fourier spectrum", "statement": "In exact arithmetic the feature extraction never fails, and row i, column b of its output for a signal fed in any pieces is log(max(2^-23, sum over k of triangle_b(k) |X_i(k)|^2)), X_i being the Fourier transform of the windowed, pre-emphasised, mean-free samples 160 i ... 160 i + 399 padded to 512.", "quantifier": "every signal and every chunking", "why_tests_cant": "equality with a mathematical specification for all real signals; composition of framing, FFT, filters and logarithm", "anchors": ["src/fbank.cc: Fbank::Fbank, Fbank::Process", "src/srfft.cc: SRFFT::Compute"]}
{"id": "C64", "title": "A wrong array size is rejected before the array is used", "statement": "SRFFT::Compute stops with an assertion before reading anything when the announced size of the data or of the buffer is wrong. (Expected to FAIL for the backward direction, which works on the data first.)", "quantifier": "every size, every array", "why_tests_cant": "undefined behaviour before the check may go unnoticed in a test", "anchors": ["src/srfft.cc: SRFFT::Compute, ComplexFFTCompute"]}
{"id": "C65", "title": "A model directory is loaded exactly", "statement": "If the configuration names files that hold a model as the converters write it, ce_stt_init returns a recogniser holding exactly that model: graph, network, logarithms of the priors, contexts, chunk size, transition map, symbols, and the large language model if there is one; whatever the order and letter case of the keys, earlier definitions, and bytes after the data.", "quantifier": "every configuration file, every model, every file system", "why_tests_cant": "unbounded space of configurations and models; composition of six readers", "anchors": ["src/ce_stt.cc: ce_stt_init", "src/am.cc: AcousticModel::Read", "src/configuration.cc: Configuration::Read"]}
{"id": "C66", "title": "A missing piece gives NULL and a true status", "statement": "ce_stt_init returns a complete recogniser or NULL; NULL exactly when something needed is missing or malformed, with a status that tells whether a key or a file was missing. It never ends in any other way. (Expected to FAIL for malformed numbers and negative priors.)", "quantifier": "every file system, every configuration file", "why_tests_cant": "all combinations of missing and present files; exceptions and aborts for particular contents", "anchors": ["src/ce_stt.cc: ce_stt_init", "src/am.cc: AcousticModel::Read", "src/vector.cc: ApplyLog"]}
{"id": "C67", "title": "Everything allocated is given back once", "statement": "After a failed ce_stt_init, after ce_stt_init and ce_stt_destroy, and after ce_utt_init, any number of stored texts and ce_utt_destroy, the live blocks are those from before, and nothing is deleted twice. (Expected to FAIL for ce_stt_t itself.)", "quantifier": "every file system, every point of failure, every number of texts", "why_tests_cant": "leaks are not observable in the results; every point of failure", "anchors": ["src/ce_stt.cc: ce_stt_init, ce_stt_destroy, ce_utt_init, ce_utt_destroy, StoreHypText"]}
{"id": "C68", "title": "The program writes what the model hears", "statement": "For a model directory as the converters write it and a .wav file of one channel, 16 kHz and 8, 16 or 32 bits, the program, if it runs to its end, writes exactly one line: the words that recognition of the whole signal by exactly that model yields, in order, single blanks between them. The pieces in which it reads the file and uninitialised memory do not matter. If the file is missing, is not such an audio file, or the model cannot be loaded, it writes no result and does not end with exit code 0.", "quantifier": "every model directory, every configuration that names its files, every audio file, every arithmetic", "why_tests_cant": "composition of all stages over all models, files and lengths", "anchors": ["src/main.cc: main, ProcessAudio", "src/ce_stt.cc", "src/pcm_reader.cc"]}
{"id": "C69", "title": "A script gives one line per entry", "statement": "For a script file the program writes for each line `name file`, in order, the name, a blank and the result it would give for the file alone, and ends with exit code 0; the first file that fails or line that is malformed ends the run with an error after the results before it. (Expected to FAIL if the last line has no newline.)", "quantifier": "every list of entries, every outcome of the single files", "why_tests_cant": "all lengths of scripts and positions of failures", "anchors": ["src/main.cc: process_scp", "src/util.cc: ReadLine, Split"]}
{"id": "C70", "title": "Only the data chunk is recognised", "statement": "What is recognised in a .wav file are the bytes of its data chunk, as many as the header declares; chunks that follow it are not audio. (Expected to FAIL.)", "quantifier": "every file with a data chunk and anything behind it", "why_tests_cant": "all contents behind the data", "anchors": ["src/pcm_reader.cc: ReadPcmHeader (subchunk2_size)", "src/main.cc: ProcessAudio"]}
{"id": "C71", "title": "The decoder's memory does not change its answers", "statement": "The decoder, with its tokens in a pool, its states in a hash table, its word histories in a garbage collected tree and its language model arcs behind a cache, gives the same answers as a decoder in which tokens and histories are plain values: each Process returns the same, the active tokens have the same states, costs and words, BestPath returns the same words and weight; and it gets through every utterance the plain decoder gets through. (Expected to FAIL from the second collection on.)", "quantifier": "every decoding graph, language model, arithmetic and sequence of frames", "why_tests_cant": "the collector runs every twenty frames and goes wrong only for some shapes of histories; the hash table and the cache must agree with a map for all insertion orders", "anchors": ["src/decoder.cc: InsertTok, PropagateLm, ProcessEmitting, ProcessNonemitting, Process, BestPath", "src/pool.h: Pool, GcPool", "src/hashtable.h: HashTable", "src/fst.h: CachedFst"]}
{"id": "C72", "title": "A converted word list can be read", "statement": "A word list converted with tool/convert_words.py is read by the recogniser as its symbol table. (Expected to FAIL: the converter writes a binary section, the reader expects text. The documentation says to copy words.txt, which works by C39.)", "quantifier": "every word list", "why_tests_cant": "no converted file is accepted, whatever its words and offsets happen to spell", "anchors": ["tool/convert_words.py", "src/symbol_table.cc: SymbolTable::Read"]}
{"id": "C73", "title": "Pruning a language model keeps its words", "statement": "tool/prune_lm.py accepts every ARPA file that tool/convert_unigram.py accepts (also with iARPA lines in front), and its output is an ARPA file with the same words and numbers in the same order, from which convert_unigram.py makes the same bytes. (Expected to FAIL for files that have words only.)", "quantifier": "every text file", "why_tests_cant": "all files, with white space, blank lines, missing back-off numbers, repeated words and bad numbers anywhere", "anchors": ["tool/prune_lm.py", "tool/convert_unigram.py: read_unigram"]}
{"id": "C74", "title": "Converted unigram costs belong to the right words", "statement": "The vector that tool/convert_unigram.py writes from an ARPA file and a vocabulary is read by Vector::Read; it has one place per id up to the largest, and at the id of a word stands the cost of that word's last entry (zero's for <s>), infinity at ids whose word the language model lacks. A vocabulary without <s>, or without a word of the language model other than <unk>, is refused.", "quantifier": "every ARPA file, every vocabulary with distinct ids, every parsing and rounding of numbers", "why_tests_cant": "all files and vocabularies, with repeated words, unused ids and any order", "anchors": ["tool/convert_unigram.py", "src/vector.cc: Vector::Read"]}
{"id": "C75", "title": "The converted transition map is the map", "statement": "From the text that extract_id2pdf prints, tool/convert_trans.py writes a vector that the acoustic model reads as its map from transition ids to pdfs: at every id the pdf of its line.", "quantifier": "every map with 32 bit numbers that fits a section", "why_tests_cant": "all maps; decimal text and binary words must agree for all numbers", "anchors": ["tool/convert_trans.py", "src/am.cc: AcousticModel::Read", "src/vector.cc: Vector::Read"]}
{"id": "C76", "title": "The converted acoustic model computes what Kaldi's network computes", "statement": "From the text of a network of affine, ReLU, batch normalisation and log-softmax components as Kaldi writes it, tool/convert_am.py accepts exactly the chains; the .nnet file it writes is read by Nnet::Read with the left and right context of the chain and with layers that, up to the rounding of each parameter to a float, compute the value of the network's output node at every frame (so that the scores of an utterance are these values on its frames, continued at both ends, minus the log prior), and the .prior file is read as the prior of the text.", "quantifier": "every network, every text of it (white space, unread fields, any layout of matrices), every input, every utterance", "why_tests_cant": "all networks and texts: any number of layers, splicing at several depths, any parameters", "anchors": ["tool/convert_am.py", "src/nnet.cc: Nnet::Read, Nnet::Propagate", "src/am.cc: AcousticModel"]}
{"id": "C77", "title": "Contexts in the configuration that do not fit the network are noticed", "statement": "If left_context and right_context of the configuration differ from the contexts of the network, the recogniser stops instead of returning scores of other frames.", "quantifier": "every network of layers as the converter writes them, every pair of contexts, every chunk size, every utterance", "why_tests_cant": "all networks, contexts and lengths of utterances; a shift in time has no visible failure", "anchors": ["src/am.cc: AcousticModel::Read, AcousticModel::Process, AcousticModel::EndOfStream", "src/nnet.cc: Nnet::Read, NarrowLayer::Propagate"]}
{"id": "C78", "title": "A directory made by the tools is a recogniser for what training produced", "statement": "If the files of the configuration are what the tools make from Kaldi's text of the network, the text of extract_id2pdf, the word list, the graph and the language models, then ce_stt_init returns a recogniser whose network has the contexts and the (rounded) layers of that network and whose transition map, words, word costs and language models are those of the sources.", "quantifier": "every proper set of sources, every directory and every configuration naming the files", "why_tests_cant": "all networks, vocabularies, language models and maps, through six converters and six readers", "anchors": ["src/ce_stt.cc: ce_stt_init", "tool/convert_am.py", "tool/convert_trans.py", "tool/convert_unigram.py", "tool/convert_fstfmt.py", "src/symbol_table.cc: SymbolTable::Read"]}
{"id": "C79", "title": "Vectors own their memory", "statement": "A program that uses Vector objects through their members (construction, Resize in its three modes, element access, Set, CopyFromVec, Swap, moves, end of scope) computes with lists: nothing is undefined, every vector holds the list it should hold, no block of memory belongs to two vectors, and when all vectors are gone all memory is given back; a negative size, an index beyond the end or lists of different lengths stop the program.", "quantifier": "every program (sequence of such steps on any number of vectors), every element type", "why_tests_cant": "all sequences of operations; a leak or a double free shows only in some orders and not in results", "anchors": ["src/vector.cc: Vector::Init", "src/vector.cc: Vector::Resize", "src/vector.cc: Vector::Destroy", "src/vector.cc: Vector::operator=", "src/vector.cc: Vector::Vector(Vector&&)", "src/vector.h: Vector"]}
{"id": "C80", "title": "Converted CMVN statistics are those of the training data", "statement": "From Kaldi's text of the statistics matrix (40 sums and the number of frames, 40 sums of squares and a last number) convert_cmvn_stats.py makes a file that is read back as the 40 sums and the count, rounded to float; normalising with it takes off the mean of the window filled up with the mean of the training frames. A text in which something is not a finite number, or with another amount of numbers than 82, is refused.", "quantifier": "every text of statistics, every layout in lines and white space, every way numbers are printed with digits, point and exponent", "why_tests_cant": "all texts; a number that the pattern does not match is dropped without a message, which would shift the others", "anchors": ["tool/convert_cmvn_stats.py", "src/vector.cc: VectorBase::Read", "src/cmvn.cc: CMVN::SmoothStats, CMVN::Apply"]}
{"id": "C81", "title": "Products of quantised matrices approximate the products", "statement": "If two float matrices can be quantised, MatMat_U8U8F32 of their bytes sets every element of the result to within sum(|a| sB/2 + |b| sA/2 + sA sB/4) of the element of the product, where sA and sB are the steps of the two quantisations, and changes nothing else.", "quantifier": "all matrices of all sizes and contents that Quantize accepts", "why_tests_cant": "a bound on the error for all contents; the existing test checks random matrices in two fixed ranges", "anchors": ["src/matrix.cc: MatMat_U8U8F32", "src/matrix.cc: Quantize", "src/gemmlowp/internal/unpack.h: UnpackResultBlock"]}
{"id": "C82", "title": "Utterances do not disturb each other", "statement": "A program may hold any number of recognisers and utterances and call the functions of ce_stt.h in any order. Until an utterance or its recogniser is destroyed, what ce_stt_process, ce_stt_end_of_stream, hyp and loglikelihood_per_frame give for it is what they give in a program that loads this recogniser, makes this one utterance and does nothing else. Everything made can be destroyed in any order. The only thing utterances share is the message of ce_stt_last_error.", "quantifier": "all programs (sequences of calls), all recognisers, utterances, formats and data", "why_tests_cant": "all interleavings of calls on any number of objects; tests use one utterance at a time", "anchors": ["src/ce_stt.h", "src/ce_stt.cc: ce_stt_init, ce_stt_destroy, ce_utt_init, ce_utt_destroy, ce_stt_process, ce_stt_end_of_stream, ce_stt_last_error"]}
{"id": "C83", "title": "The library gives in any program the text the command line tool gives", "statement": "If a configuration names the files of a model, a program that loads it, makes an utterance (one channel, 16 kHz), feeds it a stream in any pieces and ends it, with any other calls on any objects before, between and after, reads in hyp the words that recognition of the whole stream yields, spelled as in the symbol file with single blanks; this is the line the command line tool writes for an audio file with this data. Empty pieces are refused and have no effect.", "quantifier": "all programs, models, streams and cuts into pieces below 512 MB", "why_tests_cant": "all programs and all cuts of all streams; relates two ways of using the code on all inputs", "anchors": ["src/ce_stt.h", "src/ce_stt.cc: ce_stt_process, ce_stt_end_of_stream", "src/main.cc: ProcessAudio"]}
{"id": "C84", "title": "Standard output carries the results and nothing else", "statement": "What the program writes to standard output when it recognises an audio file or a script is the recognised text and nothing else, so that the output can be read by another program; warnings do not get between the results, and whatever is written besides changes neither the results nor the way the program ends.", "quantifier": "all model directories, audio files, scripts and contents of uninitialised memory", "why_tests_cant": "whether a warning appears depends on the path of the search through graph and language model, for all inputs; tests use one matching pair of graph and language model", "anchors": ["src/util.h: PK_WARN", "src/decoder.cc: PropogateLm", "src/fst.cc: DeltaLmFst::StartState", "src/fbank.cc: Melbanks::Compute", "src/main.cc"]}
{"id": "C85", "title": "Scores that are not numbers are noticed", "statement": "When the acoustic model yields scores that are not numbers, the decoder does not answer as if nothing had happened: an answer it gives rests on numbers only and no path of numbers within the beam is better, a frame it cannot use is reported and what was recognised before it remains available, and no frame is undefined behaviour because of such a score.", "quantifier": "all graphs, language models, sequences of frames with NaN at any places, and arithmetics with NaN", "why_tests_cant": "NaN makes comparisons false in both directions, so the outcome depends on the order of tokens and arcs for all graphs; std::nth_element with NaN is undefined only for large beams", "anchors": ["src/decoder.cc: Decoder::Process, GetCutoff, InsertTok, BestPath", "src/ce_stt.cc: ce_stt_process, ce_stt_end_of_stream"]}
{"id": "C86", "title": "One frame that overflows in the acoustic model does not end recognition", "statement": "When the activations of one frame are so large that the acoustic model overflows, recognition through the C interface goes on: the utterance still ends without a fault, and the words recognised before that frame are in the answer.", "quantifier": "all recognisers whose network ends in a log-softmax layer, all signals, all ways to cut them into pieces, all frames", "why_tests_cant": "the effect needs a network and a signal with an activation of 89 or more, the fault shows two frames later and only if there are that many, and it does not depend on the other frames", "anchors": ["src/vector.cc: ApplyLogSoftMax", "src/decoder.cc: Decoder::Process, GetCutoff", "src/ce_stt.cc: ce_stt_process, ce_stt_end_of_stream"]}
{"id": "C87", "title": "A view of a vector is a part of it, and misuse of a view is refused", "statement": "Whatever a program does with vectors and with views of them (SubVector, Range), a view has the length and the elements of its part of the vector, writing through it changes these elements and no others, and it follows the elements when the vector is moved, swapped or assigned. A view that does not lie in the vector, an index outside of a view, different lengths, views that overlap where they must not, and the use of a view after its vector is gone or has another length are refused by an assertion, never undefined.", "quantifier": "all programs of any length, all numbers of vectors and views, views of views, all origins and lengths, all element types", "why_tests_cant": "what may alias depends on the whole history of moves, swaps and resizes; a dangling or overlapping view often shows the right values by chance", "anchors": ["src/vector.h: SubVector, Range, operator()", "src/vector.cc: Set, SetZero, CopyFromVec, MulElements, AddVec, Scale, Add, Resize, Swap"]}
{"id": "C88", "title": "Utterances of any length are recognised", "statement": "Through the C interface, audio of any length is recognised without undefined behaviour as long as the search itself gets through it: the tokens, hash table, arc cache and collected word histories the decoder keeps in memory never change the hypothesis, the likelihood or what later calls find.", "quantifier": "all models, all audio of all lengths, all ways of cutting it into pieces, all contents of uninitialised memory", "why_tests_cant": "whether a word history is collected too early depends on which histories were live at each earlier collection, that is on the whole search so far; freed memory often still holds the old words", "anchors": ["src/ce_stt.cc: ce_utt_init, ce_stt_process, ce_stt_end_of_stream, StoreHypText", "src/decoder.cc: Process, BestPath", "src/pool.h: GCPool"]}
{"id": "C89", "title": "The text of the last error tells why no recogniser was made", "statement": "When ce_stt_init returns NULL, the text returned by ce_stt_last_error says what kind of error it was and what is wrong: which key is not defined in which configuration, which line of the configuration is no definition, which file cannot be opened, or which file is not what it should be. The text is true, whatever else is in the files, and as much of it is shown as fits the buffer. When a recogniser is returned, no text is written.", "quantifier": "all directories of files with any names and contents, all configurations, all lengths of texts and names", "why_tests_cant": "every reader makes texts of its own by replacing braces in strings that come from names and contents; which text is shown depends on the first thing that is wrong among all files", "anchors": ["src/ce_stt.cc: ce_stt_init, ce_stt_last_error, ReadHclgFst, ReadSymbolTable, ReadDeltaLmFst", "src/status.h", "src/util.h: Format", "src/util.cc: ReadableFile, StringToLong", "src/configuration.cc/.h: Read, GetPath, GetInteger, KeyNotFound", "src/am.cc: Read", "src/nnet.cc: Read", "src/vector.cc: Read", "src/matrix.cc: Read", "src/fst.cc: Read", "src/symbol_table.cc: Read"]}
{"id": "C90", "title": "In any program the text of the last error is that of the last call that failed", "statement": "After any sequence of calls of the interface, ce_stt_last_error shows the text of the last call that returned NULL, -1 or no format, and the empty text if no call failed; calls that succeed leave it unchanged. The text tells a cause that is true of the arguments of that call, and shows the number, tag or name that was wrong; except for names of any length it is shown in full.", "quantifier": "all programs of calls of the interface on any number of recognisers and utterances, all arguments, files and headers, all files of models", "why_tests_cant": "one buffer is shared by all calls, recognisers and utterances; what it holds depends on the whole history of the program, and the texts are made by replacing braces in strings that hold bytes of files", "anchors": ["src/ce_stt.cc: ce_stt_init, ce_utt_init, ce_stt_process, ce_read_pcm_header, ce_stt_last_error, CheckParamUtt", "src/pcm_reader.cc: SetFormat, Process, ReadPcmHeader", "src/status.h", "src/util.h: Format", "src/util.cc: ReadableFile"]}
{"id": "C91", "title": "The program tells what failed", "statement": "What the program writes to its standard output is, byte for byte: the usage for wrong arguments; one line with the result for an audio file; and one line `name result` for each line of a script in its order. If it stops because of a failure, the results before the failure are written, then one message, and the exit code is not 0. The message tells a true cause and names the file that failed: the model, the script with the line, or the audio file.", "quantifier": "all arguments, all model directories, all audio files, all scripts with any number of lines before the one that fails", "why_tests_cant": "the message passes through a buffer shared with the earlier calls, formats with %s and braces, and depends on which of the files of a directory and which line of a script of any length fails first", "anchors": ["src/main.cc: CheckStatus, Fatal, PrintUsage, ProcessAudio, process_scp, main", "src/ce_stt.cc: ce_read_pcm_header, ce_stt_last_error", "src/util.cc: ReadableFile::Open, ReadLine"]}
{"id": "C92", "title": "The decoding graph is read as it was written, and a damaged file is refused", "statement": "A file written by the graph library (format const, arcs standard) is read back exactly: start state, final weight and arcs of every state in order, with or without alignment and symbol tables, whatever follows in the file. A file that was cut off is refused; it never gives another graph. A file of another type is refused, and every number in an accepted file is checked before it is used.", "quantifier": "all graphs with fewer than 2^31 states and 2^32 arcs, all weights and labels, all tables, all lengths at which the file is cut, all byte strings as files", "why_tests_cant": "the sizes are computed from numbers in the file in 32 and 64 bits, padding depends on positions, and a cut may be at any byte", "anchors": ["src/ce_stt.cc: ReadHclgFst", "src/openfst/include/fst/const-fst.h: ConstFstImpl::Read, ConstFst::WriteFst", "src/openfst/include/fst/fst.h: FstImpl::ReadHeader", "src/openfst/lib/fst.cc: FstHeader::Read, FstHeader::Write", "src/openfst/lib/mapped-file.cc: MappedFile::Map", "src/openfst/lib/util.cc: AlignInput"]}
{"id": "C93", "title": "Decoding with a graph file is decoding with the graph that was written", "statement": "Whatever calls are made on a decoder (initialise, frames, end of stream, best path, in any order and number), a graph that was written to a file and read back gives exactly the answers of the graph that was written, and the decoder never looks up a state outside of the graph. A graph file that has no start state, or names a state it does not have, is refused when it is read.", "quantifier": "all graphs, all sequences of calls, all frames, all language models, all arithmetics", "why_tests_cant": "the states that are looked up depend on costs, pruning and the order of insertion over the whole run, and a lookup outside of the array may go unnoticed in a test", "anchors": ["src/decoder.cc: Decoder::Initialize, ProcessNonemitting, ProcessEmitting, BestPath", "src/openfst/include/fst/const-fst.h: ConstFstImpl::Start, Final, InitArcIterator", "src/ce_stt.cc: ReadHclgFst"]}
{"id": "C94", "title": "The character error rate does not depend on how hypotheses are cut into words", "statement": "tool/conv_chartok.sh writes, for every line of a file of hypotheses, the name and then the text character by character, words in brackets and !SIL as they are. Nothing but white space is added or lost, a file that is converted already stays as it is, and two hypotheses with the same characters give the same line, however they are cut into words.", "quantifier": "all texts (code points), all lines, with or without an end of the last line", "why_tests_cant": "regular expressions, Unicode white space and splitting interact on arbitrary text; idempotence and independence of the cut are statements about all texts", "anchors": ["tool/conv_chartok.sh", "tool/compute-cer.sh"]}
{"id": "C95", "title": "The recogniser answers with the words of a cheapest path if that path never leaves the beam", "statement": "Whether the search finds the cheapest path can be told from the graph and the scores alone: if a path is, at every frame, at most the beam (16) above every other path over the same frames, and there are never more than 30000 active tokens, then it is never dropped, and if it is a cheapest one the answer of the decoder, and the line the program writes, are the words of a cheapest path.", "quantifier": "all graphs, language models, sequences of frames, monotone arithmetics, paths; all model directories and audio files", "why_tests_cant": "the cutoffs change while a frame is processed and depend on the order of tokens; that no order and no sequence of scores drops such a path is a statement about all paths of all graphs", "anchors": ["src/decoder.cc: Decoder::GetCutoff", "src/decoder.cc: Decoder::ProcessEmitting", "src/decoder.cc: Decoder::ProcessNonemitting", "src/decoder.cc: Decoder::BestPath"]}
{"id": "C96", "title": "While audio is fed an utterance shows what has been heard so far", "statement": "The return values of ce_stt_process add up to the number of samples fed; at any moment utt->hyp is empty until twenty frames have been scored and is then the text of the best path over the scored frames up to the latest multiple of twenty, at most right context + batch size + 18 frames behind what was fed; nothing of this depends on how the audio was cut; and loglikelihood_per_frame is that of the path shown. (The last part is expected to FAIL: the cost of ending is added before the end.)", "quantifier": "all recognisers whose network and tables fit, all sequences of pieces below 536870500 bytes, all contents of uninitialised memory", "why_tests_cant": "batches, left-over samples and left-over bytes interact with the piece sizes; the moments at which the text changes must be the same for all of them", "anchors": ["src/ce_stt.cc: ce_stt_process", "src/ce_stt.cc: StoreHypText", "src/am.cc: AcousticModel::Process", "src/ce_stt.h: ce_stt_process"]}
{"id": "C97", "title": "From what training leaves behind, and an audio file, to one line of text", "statement": "Write the decoding graph with OpenFst (aligned or not, with or without symbols), run the converters of tool/ on the acoustic model, the transition map and the language models, take the word list as it is, and name the files in a configuration. If the program, given this configuration and an audio file of one channel, 16 kHz and 8, 16 or 32 bits, runs to its end, then it has written exactly one line: the words that recognition of the whole signal yields with the graph, the network, the transition ids, the language model and the words of the sources, each word as the word list spells it, with single blanks between them.", "quantifier": "all sources that fit their files, all configurations naming them, all audio files of these formats, all contents of uninitialised memory, whatever follows in the files", "why_tests_cant": "ten programs and file formats in a row; a test compares one model and one recording, and a wrong byte offset, a shifted id or a swapped table shows only for some sources", "anchors": ["src/main.cc: main", "src/ce_stt.cc: ce_stt_init", "src/openfst/include/fst/const-fst.h: ConstFst::Read", "tool/convert_am.py", "tool/convert_trans.py", "tool/convert_fstfmt.py", "tool/convert_unigram.py"]}
{"id": "C98", "title": "Rounding of floating-point numbers costs the answer at most a known small amount", "statement": "On a machine whose float and double are those of IEEE 754, where every cost on every path is a number no larger than B (16 <= B <= 2^100) and no path over the frames has more than n <= 2^20 arcs: the words the decoder returns are those of a path which, summed without rounding, costs at most 2 (n + 1) B / 2^20 more than any path that stays inside the beam (less (2 n + 4) B / 2^20). If one path stays inside this beam and beats all paths with other words by more than that, its words are the answer. The cost computed for a path is a number off by at most B / 2^20 per arc. No frame is refused if such a path exists, and the line the program writes for an audio file is the words of a path as described. What other theorems on the decoder ask of the arithmetic (order, rounding to float, fractions, NaN, monotone sums) holds of IEEE 754.", "quantifier": "all graphs, language models, frames, states, sizes of costs and lengths of paths within the bounds; all floats and doubles", "why_tests_cant": "an error of rounding shows only where two sums fall on the same float or swap places; there are 2^32 floats per cost and exponentially many paths", "anchors": ["src/decoder.cc: ProcessEmitting, ProcessNonemitting, GetCutoff, BestPath", "src/decoder.h: kBeamSize"]}
{"id": "C99", "title": "No audio makes the features infinite or NaN, and no assertion of the feature extractor fires", "statement": "On a machine whose float and double are those of IEEE 754, with a C library whose cos, sin, log and logf are right within wide bounds: the constructor of Fbank comes to its end (no mel filter is empty), and whatever the bytes of the audio are, with 8, 16 or 32 bits to a sample and however they are cut into pieces, the features of all frames are computed, 40 for each frame, and each is a number between -16 and 89. The assertion of ApplyLog never fires.", "quantifier": "all byte strings as audio, of any length, all three sample sizes; all ways to cut them; all C libraries within the bounds", "why_tests_cant": "an overflow or a 0/0 needs particular samples, among 2^(8*800) frames of 16 bits alone; the bound holds for all of them, and for every C library within the bounds", "anchors": ["src/fbank.cc: Fbank::Fbank, ProcessWindow, Compute, Process", "src/srfft.cc: SRFFT", "src/vector.cc: ApplyFloor, ApplyLog"]}
{"id": "C100", "title": "No audio makes the acoustic scores infinite or NaN", "statement": "On a machine whose float and double are those of IEEE 754, with a C library and a BLAS that are right within wide bounds: for a network of the kind the converter writes, whose weights and priors are numbers, every acoustic score of every frame is a number no larger than a bound that can be told from the weights, whatever the bytes of the audio are.", "quantifier": "all networks the converter can write, all weights that are numbers, all byte strings as audio, all C libraries and BLAS within the bounds", "why_tests_cant": "an overflow, a logarithm of zero or a division by zero needs particular samples and particular weights; a test tries a few of each, with one library", "anchors": ["src/nnet.cc: LinearLayer, ReLULayer, NormalizeLayer, SoftmaxLayer, LogSoftmaxLayer, BatchNormLayer, Nnet::Propagate", "src/am.cc: AcousticModel::Compute", "src/vector.cc: ApplySoftMax, ApplyLogSoftMax, VecVec"]}
{"id": "C101", "title": "With a sound model every recording is recognised to its end", "statement": "On a machine whose float and double are those of IEEE 754, with a C library and a BLAS that are right within wide bounds, and a model whose parts fit together (a robust network as in C100; every label of the graph has a transition group, every word a spelling and an answer of the language model; at most k arcs in a row consume nothing; an arc that consumes a frame leaves every state; costs are numbers of moderate size): whatever the bytes of the audio are, as long as n frames leave n (k + 1) + k below 100000, the program ends normally and writes one line. No assertion fires, nothing is undefined, the loop over arcs that consume nothing ends, no frame is refused. The same holds of an utterance fed through the interface in pieces below half a gigabyte. Where no path through the graph is as long as the audio the program never ends normally.", "quantifier": "all models that fit together, all byte strings as audio of up to so many frames, all pieces, all contents of uninitialised memory, all C libraries and BLAS within the bounds", "why_tests_cant": "a test shows that one recording is recognised with one model; that none makes the decoder lose all its tokens, loop, overflow its costs or run into one of the assertions is a statement about all of them", "anchors": ["src/main.cc: main, ProcessAudio", "src/ce_stt.cc: ce_utt_init, ce_stt_process, ce_stt_end_of_stream, StoreHypText", "src/decoder.cc: Initialize, Process, ProcessEmitting, ProcessNonemitting, GetCutoff, InsertTok, BestPath", "src/am.cc: AcousticModel::Process, EndOfStream"]}
{"id": "C102", "title": "A small sound model always answers, and with the best line up to beam and rounding", "statement": "With a model as in C101 whose graph has K states and whose language model has M: after any frames the decoder holds at most K M tokens, in any arithmetic. If K M is at most 30000, the beam is never narrowed below its configured width, so that the line the program writes for an audio file is, in IEEE arithmetic and with all rounding accounted for, the words of a path whose cost is within the stated margin of that of every path staying inside the beam; if K M is at most 46338, the decoder with its memory (pools, free lists, hash table, collection of word histories) takes every frame, refuses none and has an answer, unless a collection starts with a stale mark, which none does within twenty frames.", "quantifier": "all models that fit together with few states, all byte strings as audio of up to so many frames, all paths, all contents of uninitialised memory, all C libraries and BLAS within the bounds", "why_tests_cant": "the number of tokens depends on the scores; that no recording makes more of them than pairs of states, and that the answer is then the best of all paths inside the beam, are statements about all recordings and all paths", "anchors": ["src/main.cc: main, ProcessAudio", "src/decoder.cc: Process, GetCutoff, InsertTok, BestPath, GC", "src/ce_stt.cc: ce_stt_process, ce_stt_end_of_stream"]}
{"id": "C103", "title": "The FFT in float arithmetic is the Fourier transform up to a stated error", "statement": "Let N = 2^k be between 4 and 32768, and the samples float numbers of magnitude at most A (2^-60 <= A <= 2^59). In IEEE 754 arithmetic, with cos and sin of the C library right up to 2^-24, SRFFT::Compute in the forward direction returns, nothing in the output is infinite or NaN, and every number of the packed spectrum differs from the real or imaginary part of the exact discrete Fourier transform at that frequency by at most N A (99 k + 8 N) / 2^24; for the 512 points of the filter bank, by at most 0.153 A, where the spectrum can be as large as 512 A.", "quantifier": "all sizes, all signals, all contents of the scratch space, all C libraries within the bound", "why_tests_cant": "rounding errors depend on all samples and add up along the recursion and along the running product of the roots of unity; a comparison on sample signals says nothing about the worst signal", "anchors": ["src/srfft.cc: SRFFT, ComputeTable, ComplexfftComputeRecursive, ComplexFFTCompute, Compute"]}
{"id": "C104", "title": "The log-mel features in float arithmetic are those of the exact definition up to stated errors", "statement": "In IEEE 754 arithmetic, with cos, sin and log of the C library right up to about their last bit, every Fbank object has forty filters whose weights lie between 0 and 1, differ by at most 1/256 from the mel triangles from 20 Hz to 8000 Hz and vanish from a tenth of a mel outside of them; the filters do not depend on the audio. For every frame of 400 samples of magnitude at most A (1 <= A <= 2^31), feature b is within 1/10000 of the logarithm of the energy, floored at 2^-23, that filter b passes of a spectrum each magnitude of which is within A of the exact one (mean removed, pre-emphasised, windowed, padded to 512; magnitudes reach up to 1600 A). For 16-bit audio, however it is cut into pieces of fewer than 536870500 samples, row i that Fbank::Process hands out is the one of the samples 160 i to 160 i + 399, with A = 32768.", "quantifier": "all frames, all audio data, all ways of cutting it into pieces, all C libraries within the bounds", "why_tests_cant": "the rounding errors of the mean, the window, the FFT, the powers, the filter sums and the logarithm depend on all samples at once; tests compare a few signals with a tolerance and cannot show that no frame is worse", "anchors": ["src/fbank.cc: Fbank, Process, ProcessWindow, ComputePowerSpectrum, ComputeFrame, HammingWindowInit, Melbanks", "src/srfft.cc: Compute"]}
{"id": "C105", "title": "The sliding normalisation in float arithmetic: how far rounding takes it, and that it drifts", "statement": "In IEEE 754 arithmetic, for features and global means up to M: the first 2^22 frames can be requested in order from a CMVN object, no assertion fires, every coefficient is a number, and for frame t it is within (1000 (t + 1) / n + 20) M / 2^24 of the coefficient minus the exact mean over the last at most 600 frames and up to 200 global ones (n of them). The growth with t is real: for every k up to 13000 there are features between 14 and 14 + 1/1024, the last 600 frames of which are all 14, such that the last frame, which should be 0, is -k/1024 up to 2^-14, where k counts stretches of 1800 frames. The sums are rounded to float when they are kept from one frame to the next, and nothing corrects them.", "quantifier": "all feature matrices and global statistics within the bounds, all frames up to 2^22; for the drift all k up to 13000", "why_tests_cant": "the test feeds a few hundred frames and compares with a tolerance; the error is carried from frame to frame and depends on all of them", "anchors": ["src/cmvn.cc: CMVN::ComputeStats, SmoothStats, Apply, GetFrame", "src/vector.cc: VectorBase::AddVec"]}
{"id": "C106", "title": "The acoustic scores are those of the network in real numbers, up to a rounding error told from the weights", "statement": "On a machine whose float and double are those of IEEE 754, with a C library and a BLAS of ordinary accuracy: for every network of the kind tool/convert_am.py writes, every output differs from that of the same network in real numbers by at most a bound that is computed layer by layer (a linear layer multiplies the error by the largest column sum of its weights, a batch normalisation by its largest scale, a log-softmax by two, and each adds a few units of the last place of the numbers it handles). So the acoustic scores of 8- or 16-bit audio of any length are the exact ones, less the logarithms of the priors, of features that are exact for a spectrum right up to the size of one sample.", "quantifier": "every converted network, every input sequence, every order of summation in BLAS; every 8- or 16-bit audio", "why_tests_cant": "a continuum of weights and inputs, and the error bound has to hold for every order in which a BLAS adds", "anchors": ["src/nnet.cc: Nnet::Propagate, LinearLayer::Propagate, ReLULayer::Propagate, BatchNormLayer::Propagate, LogSoftmaxLayer::Propagate", "src/vector.cc: VectorBase::ApplyLogSoftMax, AddVec, MulElements", "src/matrix.cc: MatMat", "src/am.cc: AcousticModel::Process"]}
{"id": "C107", "title": "What is printed is nearly the best answer in real numbers", "statement": "On a machine whose float and double are those of IEEE 754, with a C library and a BLAS of ordinary accuracy and a model as in C102: for a WAV file of 8 or 16 bits the program prints a line, and the line is the words of a path through the decoding graph whose cost in real numbers (network, priors, scale, graph and language model, nothing rounded anywhere, on features that are exact for a spectrum right up to the size of one sample) exceeds that of every path that never leaves the beam by at most a margin told in advance: the rounding of the decoder, 2(n+1)B/2^20, and twice the number of frames times the acoustic scale times the error of a score of C106.", "quantifier": "every model of the kind the tools write with up to 30000 pairs of states, every 8- or 16-bit audio file, every order of summation in BLAS, every content of uninitialised memory", "why_tests_cant": "the exact answer cannot be computed by a program in floating point, and the claim compares the path found with all paths through the graph", "anchors": ["src/main.cc: main, ProcessAudio", "src/ce_stt.cc: ce_stt_process, ce_stt_end_of_stream", "src/decoder.cc: Process, GetCutoff, InsertTok, BestPath", "src/nnet.cc: Nnet::Propagate", "src/fbank.cc: Fbank::Process"]}
{"id": "C108", "title": "The network in memory: right rows, nothing else touched, nothing left behind", "statement": "Nnet::Propagate, with the parameters of the layers, the input and the result as matrices and vectors in memory (any strides, the input perhaps a part of a larger matrix, the result perhaps in the block of the input), meets no undefined behaviour; the result has the rows of the network, rows - L - R of them, row t being the value at input row t + L; no other block that was there before has changed, in particular not the parameters; and afterwards exactly the blocks of before are in use, with the one of the result in place of its old one, so every matrix made on the way has been freed once. A narrow layer by itself, given no more rows than it takes away, hands on all of them. MatMat leaves the product in its third argument and changes nothing else; a third argument that overlaps with a factor, or a single layer working in place, does not give the product or the layer.", "quantifier": "every network as the converter builds them, every number of layers and rows with sizes that fit in an int, every layout of parameters and input in memory, every state of the object for the result, every arithmetic", "why_tests_cant": "a test sees the numbers of a few layouts; a write beside a row, a read of a freed or unwritten element and a block that is never freed do not show in the numbers", "anchors": ["src/nnet.cc: Nnet::Propagate, Propagate of the eight layers", "src/matrix.cc: MatMat, Swap, Resize, CopyFromMat", "src/matrix.h: Row, Range, ~Matrix", "src/vector.cc: ApplySoftMax, ApplyLogSoftMax, VecVec, Scale, AddVec, MulElements"]}
{"id": "C109", "title": "The acoustic model in memory: right scores, a bounded buffer, nothing left behind", "statement": "With the parameters of the acoustic model in memory, and the feature vectors of every piece of audio in a matrix that is freed at the end of its call, the calls of Process for the pieces of an utterance, EndOfStream and the destructors meet no undefined behaviour; there is one row of scores for every frame, the one of C28, however the frames are cut into pieces; no block from before has changed, and afterwards exactly the blocks of before are in use. After every piece the rows so far are final whatever frames follow, fewer than right_context + chunk_size frames wait for their scores, and the memory in use besides that of before is the buffer: fewer than left_context + right_context + chunk_size vectors in blocks of their own. With chunk_size 0, which the configuration accepts, the bound on the buffer fails.", "quantifier": "every network as the converter builds them, every layout of the parameters in memory, every utterance with one frame at least in every division into pieces, every batch size from 1 and contexts equal to those of the network with sizes that fit in an int, every arithmetic", "why_tests_cant": "a test sees the scores of a few utterances; that the buffer of a stream without end stays bounded, that a frame is copied before its owner goes, and that every batch is freed once do not show in scores", "anchors": ["src/am.cc: AppendFrame, BatchAvailable, ComputeBatch, Process, EndOfStream", "src/am.h: Instance", "src/ce_stt.cc: ce_stt_process, ce_stt_end_of_stream", "src/vector.cc: Vector move constructor, CopyFromVec", "src/matrix.cc: Resize"]}
{"id": "C110", "title": "The feature extraction in memory: right features, a bounded buffer, nothing left behind", "statement": "With the tables of the feature extraction and the samples in memory, a call of Fbank::Process meets no undefined behaviour, whatever the memory contains that it allocates without writing; the rows of the matrix are the features of C27; the wave buffer is left with the samples from the start of the first incomplete frame, fewer than 400, in one block of its own; the matrix and the buffer have exchanged their blocks, the window, the scratch buffer, the feature vector and the temporary buffer have been freed, and no other block has come, gone or changed. A frame with a NaN aborts the call. After any calls for the pieces of an utterance the features are those of the whole signal and the only memory in use besides that of before is the buffer; with the destructor of the instance nothing is left. A call without samples aborts.", "quantifier": "every arithmetic, tables of the sizes the constructors give them in any layout in memory, every FFT that uses its buffer as scratch space only, every content of uninitialised memory, every signal, in every division into pieces of fewer than 536870500 samples", "why_tests_cant": "the features of a test file show neither a read of uninitialised memory that happens to be harmless, nor a leak of a few hundred floats per call, nor a buffer that grows with the audio", "anchors": ["src/fbank.cc: Process, ExtractWindow, ProcessWindow, ComputeFrame, ComputePowerSpectrum, Melbanks::Compute", "src/fbank.h: Fbank::Instance", "src/vector.cc: Resize, CopyFromVec, Range", "src/matrix.cc: Resize", "src/ce_stt.cc: ce_stt_process"]}
{"id": "C111", "title": "From samples to scores in memory: the scores of the whole signal, with memory that does not grow", "statement": "With the tables of the feature extraction and the parameters of the acoustic model in memory, the calls of ce_stt_process for the pieces of an utterance up to the scores, the end of the stream and the destructors of the two instances meet no undefined behaviour, whatever uninitialised memory contains. There is one row of scores for every frame of the signal: the network at that frame on the features of C27 of the whole signal, minus the log prior, as if the first and the last feature went on for ever. Before the end of the stream the rows so far are final whatever follows, fewer than R + c frames are without scores (R the right context, c the batch), and the memory in use besides that of before is a wave buffer of fewer than 400 samples and fewer than L + R + c vectors. Afterwards the blocks in use are those of before, and none of them has changed.", "quantifier": "every arithmetic, tables and parameters in any layout in memory, every network built by C28 for 40 features, every batch size, every content of uninitialised memory, every signal without NaN in its features, in every division into pieces of fewer than 536870500 samples", "why_tests_cant": "the feature extraction hands its matrix to the acoustic model; a row freed or overwritten too early, a buffer that grows with the audio or a vector lost per batch shows only for some divisions of some signals", "anchors": ["src/ce_stt.cc: ce_stt_process, ce_stt_end_of_stream", "src/fbank.cc: Process", "src/am.cc: Process, EndOfStream", "src/fbank.h: Fbank::Instance", "src/am.h: AcousticModel::Instance"]}
{"id": "C112", "title": "The whole interface in memory: the same answer, and the front end leaves memory as it found it", "statement": "The program with all of its memory, from the bytes of the audio through samples, wave buffer, features, buffered frames and scores to the decoder's pools, the text and ce_utt_destroy, ends with the text, the likelihood, the decoder's memory and the message of the program whose front end works on values (C88), or with the same fault, whatever uninitialised memory contains; the blocks of the front end in use afterwards are those in use before, and none of them has changed. For utterances of up to twenty frames the answer is that of the recogniser that works on values throughout (C29, C42, C54). The fault of C88, words lost from 21 frames on, is there as well.", "quantifier": "every recogniser as in C29 whose widest layer has at most 536870911 elements, tables and parameters in any layout in memory, every format, every audio whose features are numbers, in every division into non-empty pieces of fewer than 536870500 bytes", "why_tests_cant": "a test sees one layout of memory and one content of what is not initialised; an answer that depends on either, or a block lost per call, needs a statement about all of them", "anchors": ["src/ce_stt.cc: ce_utt_init, ce_stt_process, ce_stt_end_of_stream, ce_utt_destroy", "src/main.cc: ProcessAudio", "src/am.cc: Process, EndOfStream", "src/fbank.cc: Process"]}
{"id": "C113", "title": "The transform's tables: filled within their blocks, read within them, freed once", "statement": "The constructor of SRFFT writes only to the blocks it allocates. As long as these blocks are not changed, every transform, forward or backward, of any data with any sizes announced, reads no table outside of its block and no element that was not written, and gives the answer (or the refusal) that it gives with tables that are values (C48, C49, C60, C64). The destructor frees each of the blocks, none twice, and nothing else. A size that is not twice a power of two above one is refused before anything is allocated.", "quantifier": "every size the constructor accepts, every arithmetic, every content of memory before, and whatever happens to the rest of memory between constructor, transforms and destructor", "why_tests_cant": "the tables of a level are six stretches of one block filled through six moving pointers with one place left out, and the table of pointers is allocated with a misplaced parenthesis: that no size runs over, or leaves a place unwritten, is a statement about all sizes", "anchors": ["src/srfft.cc: ComputeTable, SRFFT, ~SRFFT, ComplexfftComputeRecursive, BitReversePermute, Compute"]}
{"id": "C114", "title": "On a real machine, with all of its memory, a small sound model answers every recording", "statement": "With the arithmetic of IEEE 754, the tables of the feature extraction and the parameters of the network in memory, and a model whose network keeps numbers small (C100), whose graph and language model have moderate costs and few states (C101, C102) and whose words are all known, the program with all of its memory, the decoder's included, ends for every recording and every cut of it, without a fault, with the text and the likelihood of the recogniser that works on values, whatever uninitialised memory contains; its front end changes no memory from before and leaves none in use. The one exception is the mark of a token that was freed (C71), which needs more than twenty frames.", "quantifier": "every recording up to 100000 words, every cut into pieces below 536870500 bytes, every such model, every place of tables and parameters in memory, every content of uninitialised memory", "why_tests_cant": "it joins rounding, overflow to infinity, pruning, hashing, garbage collection and the life of every block, for all audio and all contents of memory", "anchors": ["src/ce_stt.cc: ce_utt_init, ce_stt_process, ce_stt_end_of_stream, ce_utt_destroy", "src/main.cc: ProcessAudio"]}
{"id": "C115", "title": "A refused header leaves the caller's format object alone", "statement": "ce_read_pcm_header fills the caller's format object with the three fields of the header when it answers with that object, whatever was in it before, and leaves the file at the first byte of the audio; when it answers NULL the object is as it was before the call.", "quantifier": "every file, every earlier content of the object", "why_tests_cant": "there are files that end or go wrong at every byte of the header, and objects with any content", "anchors": ["src/pcm_reader.cc: ReadPcmHeader", "src/ce_stt.cc: ce_read_pcm_header"]}
{"id": "C116", "title": "A word list becomes a table of its words, or is refused", "statement": "Of a text with a word and a decimal number on each line convert_words.py makes a file in which every id leads to the UTF-8 bytes of the word of the last line with this number, and to <empty> if no line has it; negative numbers count from the end of the table. A text with any line that does not hold two fields (a blank last line too), with letters in a number, or with a number below minus the size of the table, is refused. The library's own reader refuses every file made.", "quantifier": "every text, words of any characters but NUL, any numbers, files below 16 MiB for the last sentence", "why_tests_cant": "lists have any length, order, repeated and missing ids, characters of one to four bytes, and white space of any kind between the fields", "anchors": ["tool/convert_words.py", "src/symbol_table.cc: SymbolTable::Read"]}
{"id": "C117", "title": "A matrix on a plain array, its scaling and its random values stay within its elements", "statement": "SubMatrix(data, rows, cols, stride) is the matrix whose element (i, j) is data[i * stride + j]; rows that overlap and a null pointer with elements are refused. Scale multiplies each element of a matrix once, and SetRand gives each element, row by row, the next number of the generator, a finite number from 0 to 1 in float and in double. Neither changes anything else: the padding between the rows and the rest of a larger matrix stay.", "quantifier": "every array and shape that fits int, every stride, every content, every sequence of numbers of the generator", "why_tests_cant": "a write into the padding or beside a window is seen by no comparison of the elements, and the bound 1 after three roundings has to hold for 2^31 numbers", "anchors": ["src/matrix.cc: SubMatrix(Real*, int, int, int), MatrixBase::Scale, MatrixBase::SetRand", "src/vector.cc: VectorBase::Scale"]}
{"id": "C118", "title": "The map of a Kaldi transition model arrives unchanged in the acoustic model", "statement": "What extract_id2pdf prints of a transition model, given as a file to convert_trans.py, is converted into the vector from which the acoustic model takes, for every transition id up to the number of transitions and for no other, the pdf that the transition model has for it. Whether the lines of the text end in LF or CR LF makes no difference.", "quantifier": "every number of transitions whose vector fits the size field, every map into int, every mix of line ends", "why_tests_cant": "a map that is shifted by one or loses an entry differs at one id among thousands, and recognises something else instead of failing", "anchors": ["tool/extract_id2pdf.cc: main", "tool/convert_trans.py", "src/am.cc: AcousticModel::Read"]}
{"id": "C119", "title": "Vectors of float and double are copied and added element by element, and nothing is lost on the way through double", "statement": "CopyFromVec and AddVec between a vector of float and a vector of double change exactly the elements of their target, also when it is a part of a larger vector, each to the converted element or to the sum; different dimensions abort before anything is read. A float vector that is copied into a double vector and back is the same, infinities and NaN included. A double becomes the nearest float. AddVec computes in double, without a product when alpha is 1.", "quantifier": "all vectors and views, all contents, every memory around them", "why_tests_cant": "a write beside the target is seen by no comparison of its elements, and the way back has to be exact for all 2^32 floats", "anchors": ["src/vector.cc: VectorBase::CopyFromVec<OtherReal>, VectorBase::AddVec<OtherReal>"]}
{"id": "C120", "title": "mkgraph_hcl.sh leaves the costs of the language model's words, ends, or silently keeps an old file", "statement": "Given a language model with n-grams of more than one word and a vocabulary with all its words, mkgraph_hcl.sh leaves in lm.1order.bin a vector that the library reads, with the cost of each word at the place of its id, whatever the ends of lines of the texts and whatever was in the file before. Given a language model of words only it ends with status 22. Given a vocabulary that lacks a word it goes on with the old content of lm.1order.bin, because the status of the converter is not looked at; given a cost that is no 32-bit float it goes on with a part of a vector.", "quantifier": "every text of a language model in ARPA format, every vocabulary, every old content", "why_tests_cant": "the chain runs through two programs and two files of arbitrary length, and a stale file looks like a good one", "anchors": ["tool/mkgraph_hcl.sh: lines 48-49", "tool/prune_lm.py", "tool/convert_unigram.py"]}
{"id": "C121", "title": "The text format of convert_fstfmt.py tells everything that is in the binary file", "statement": "If convert_fstfmt.py writes the same text for two transducers, it also writes the same binary file for them (or refuses both): start state, final weights, the table of states and the arcs in their order are the same. The text has six lines, two for each state and one for each arc. Weights are ones that Python shows in different ways, which are all floats but NaN.", "quantifier": "every two transducers", "why_tests_cant": "a statement about all pairs of texts of any length; a missing field or an ambiguous separator shows only for some pairs", "anchors": ["tool/convert_fstfmt.py: lines 24-54, 75-90"]}
{"id": "C122", "title": "compute-cer.sh scores the file it is given or fails", "statement": "If the file of hypotheses given to compute-cer.sh exists, compute-wer is run on its text cut into characters; if it does not exist, the script ends with a status that is not 0. (False: a missing file is not noticed, since the status of the pipeline in conv_chartok.sh is that of perl, and a file without utterances is scored; and a file named with a directory is refused with status 22 exactly if that directory does not also exist below /tmp. True for an existing file in the current directory.)", "quantifier": "every name and content of the file of hypotheses and every set of directories", "why_tests_cant": "tests run the script on one file in one place; the failures depend on which directories exist below /tmp and on files that are not there", "anchors": ["tool/compute-cer.sh: lines 3-11", "tool/conv_chartok.sh: lines 7-24"]}

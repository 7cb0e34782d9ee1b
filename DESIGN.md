# CatEars: formal model and proofs — design

Source: `/repo` (ling0322/CatEars, C++).  Model, specifications and proofs: `lean/Verif`.

## 1. Method

* Every modelled C++ function is one Lean definition that follows the statements of the function; the
  definition's comment cites file and lines and lists its simplifications.
* Faults are outcomes, not assumptions.  A model function that can misbehave returns `Exec α`
  (`Except Fault α`) with `Fault = assert | ub | throw | fuel`:
  a failed `assert`, undefined behaviour (out-of-bounds access, signed overflow, null dereference, use of
  a dead object), an uncaught C++ exception, and "ran out of the model's fuel" (possible non-termination).
  A recoverable error is an ordinary value (a `Status`).
* A specification (`Spec` sections) is written separately from the model: a map for the hash table, an
  abstract reachability relation for the collector, a path relation for the decoder, a sliding-window
  formula for the streaming stages, …
* A property that is false of the code is recorded as a theorem proving the negation on a concrete witness
  (name suffix `_fails`), next to a theorem that proves what does hold (suffix `_partial`).
* Floating point.  Structural theorems are generic over an abstract carrier with uninterpreted operations
  (no algebraic law is assumed), so they hold for the rounding arithmetic of the machine.  Where order
  matters (pruning, optimality) the laws used (monotone rounding) are explicit fields of a structure that
  exact and rounded arithmetics satisfy, with an instance shown.  Theorems that need real algebra (CMVN, FFT,
  softmax, quantisation) are over exact `ℚ`/`ℝ`/`ℂ` or an arbitrary commutative ring; this is a stated
  simplification.

## 2. Plan per property

| id | what is modelled | how it is proved |
|----|------------------|------------------|
| C01 | table with buckets, probing, growth; spec = finite map with history | refinement by induction on the operation history; probe-chain invariant |
| C02 | same, with int32 overflow and the 65536 probe limit as faults | squares modulo a prime are distinct, pigeonhole; primality of all table sizes |
| C03 | same | negation with a concrete key set; partial theorem = C02 |
| C04,C05,C06 | bump pool with free list, per-slot object state | invariant by induction over histories; C06 negation + partial (no earlier Clear) |
| C07,C08 | mark and sweep over linked nodes | invariants of mark loop; reachability relation; negation for stale mark + partial |
| C09 | successor map of history nodes, OnCollect order | invariant preserved by extend and by GC |
| C10,C11,C12 | byte-level reader, python writer, lower_bound | round trip; prefix rejection; binary-search correctness |
| C13,C14,C16 | LM lookup with fuel; spec = inductive backoff relation | induction on chain; transparency of bucket |
| C15 | direct mapped cache over arbitrary FST | invariant "entry agrees with FST" |
| C17,C18,C19,C20,C24,C52,C54 | whole decoder over abstract arithmetic | invariants over Initialize/Process histories; path relation as spec |
| C21,C22,C23 | GetCutoff with the actual generator | order laws; generator period / computed first hit |
| C25,C26 | PCM reader over bytes | induction on chunk list; characterisation of accepted headers |
| C27 | framing loop with buffer | induction on chunk list |
| C28,C30 | AM buffer, batches; splice/narrow layers | invariant relating buffer to padded frame sequence; locality |
| C29 | composition of the stages as in ce_stt.cc | composition of C25, C27, C28 |
| C31,C32,C33,C58 | binary readers and python writers | round trip; negation witness for truncation; composition of readers that reject every cut |
| C34–C37, C41, C42 | string functions over byte lists | induction on strings |
| C38,C39,C40 | configuration and symbol table over the line reader | induction on lines; negation for missing newline |
| C43 | API argument checks | case analysis over arguments |
| C44 | 32-bit bit trick | bit-level induction |
| C45 | in-place loops over arrays | loop invariant |
| C46 | sliding window sums | invariant over a commutative ring |
| C47 | quantisation over ℚ | inequality reasoning |
| C48,C49 | the C++ loops, arrays and tables of `srfft.cc` with the arithmetic a parameter; exact reals for C48 | bit reversal by an invariant on the exchanged pairs; split-radix recursion on the logarithm of the length; orthogonality of roots of unity for the inverse |
| C60,C64 | the same model with any arithmetic | every access is in range by lengths alone; the buffer is overwritten before it is read |
| C61,C62 | constructors of `fbank.cc` with the arithmetic a parameter; exact reals | the loop over the bins finds the first and the last bin inside; comparisons of mel frequencies reduce to comparisons of integers (`2880^(41-b) 34800^b` against `(2800+125 i)^41`); bounds on pi |
| C63 | C27, C45, C48, C61 composed | sums over lists to finite sums |
| C65,C66 | `AcousticModel::Read`, `ce_stt_init` over a file system (function from names to bytes); specification: definitions of a configuration, files written by the converters | C38, C56, C33, C31, C39, C10, C14 composed step by step |
| C67 | the heap as the multiset of blocks made by `new` in `ce_stt.cc`; deleting a block that is not live is undefined | each step keeps "live = blocks of the structure + rest" |
| C68 | `src/main.cc` as a run with output and end; the recogniser of the stages is made from the loaded structure by reading bits as numbers | loop over the file = feeding in pieces; C65 and C29 composed |
| C69 | the loop of `process_scp` over the lines of a script | induction over the lines, in terms of the program run on the files alone |
| C70 | the same model; the declared size is a field that is read and dropped | corollary of C68 for files that end with the data; a concrete pair of files for the negation |
| C71 | `decoder.cc` a second time, function by function, over the models of the pool, the collector, the hash table and the cache (`Mdec*.lean`) | two simulations: memory against a half-way decoder with values for tokens and the collector's memory for histories, and that against the decoder of C17-C24; kernel evaluation of 21 frames for the negation |
| C72 | `tool/convert_words.py` from pairs of word and id to bytes; the reader of C39 | an accepted file has a line that begins with `</s>` and a blank; every line is a piece of the file without NUL; no such piece of a converted file has one |
| C73 | `tool/prune_lm.py` and `read_unigram` as functions on lists of lines; Python's `strip`, `split` and dictionaries | simulation of the two state machines line by line; the form of an ARPA file is stated on the text |
| C74 | all of `tool/convert_unigram.py`; `float`, `-c * M_LN10` and `struct.pack("<f")` are arbitrary functions | dictionary = last entry; fold over the array; C31 for reading |
| C75 | all of `tool/convert_trans.py`; `int` reads ASCII digits and a sign | decimal printing and reading are inverse; fold over the lines; C31 and the reader of C65 |
| C76 | all of `tool/convert_am.py` on text (regular expressions as searches on lists of characters); numbers, their arithmetic and rounding are arbitrary functions, exact where values are compared | the grammar of Kaldi's text is stated without the functions of the model; induction over nodes, components, lines; the meaning of a network is the system of equations of its nodes over ℝ, with any solution; C28, C31, C33 for the recogniser; a description that names a component the text lacks is refused (`AmConvMissing.lean`) |
| C77 | `am.cc` with contexts that differ from those of the network | the batching of C28 for any batch function; a wrong sum changes the number of rows, so that an assertion of the network or of the batching fails; an equal sum shifts the rows |
| C78 | `ce_stt_init` on a directory whose files are outputs of the converters | composition of C65, C74, C75, C76, C10; the sources are stated as texts (`KitSpec.lean`) |
| C79 | `Vector` as pointer and dimension on a heap of blocks, programs of operations on named objects (`VecMemModel.lean`) | simulation by lists: each object represents its list, each block has one owner; fails for move-assignment and for huge sizes: witnesses, and the exact number of lost blocks |
| C80 | `tool/convert_cmvn_stats.py` on decoded text, the regular expression as a function | language of the expression as a grammar; words of the joined lines; composed with C31 and C46 |
| C81 | `MatMat_U8U8F32` with the integer arithmetic of gemmlowp's `unpack.h`, on data blocks (`QmulModel.lean`) | exact arithmetic; C47 for both factors; every intermediate integer bounded by k times the reaches of the two zero points; witnesses for overflow, single elements and padding |
| C82 | programs as sequences of calls over a state of heap, recognisers, utterances and the message (`ApiModel.lean`) | invariant of all runs (`ApiRun.lean`), simulation with the run of the utterance alone (`ApiAlone.lean`); loading succeeds on any heap if it does on one |
| C83 | as C82 and C68 | the calls about an utterance as one fold (`ApiText.lean`), which is `Stt.recognise`; C29, C65, C68 |
| C84 | the functions between `main` and the three `PK_WARN`s once more, with what they write (`LoudModel.lean`) | taking the warnings out gives the model of C68; invariant "all tokens are at language model states that know every word of the graph"; every piece of the run that has said NaN ends in an assertion |
| C85 | the decoder of C17-C24 over any arithmetic with NaN (`NanSpec.lean`, `NanLemmas.lean`, `NanExample.lean`, `NanWide.lean`); `std::nth_element` on costs that are not strictly weakly ordered is a fault of its own | NaN spreads along paths, so a token with a number has a path of numbers; all tokens of a frame of NaN are NaN; witnesses with rationals, infinity and NaN, one of them with a start state of any number of arcs between 30000 and 60000 |
| C86 | the interface of C29, the network of C30 and C50, the decoder of C17-C24, over any arithmetic with infinities and NaN (`OverflowSpec.lean`, `OverflowLemmas.lean`, `OverflowReal.lean`, `OverflowExample.lean`) | costs of plus infinity or NaN stay such whatever is added and are below nothing, so no token of the frame wins and the cutoff stays infinite; C29 gives the rows of scores of an utterance; sums of exponentials one of which is infinite; instances with integers and with reals that overflow at 2^128 |
| C87 | C79 with views: a view is a pointer and a dimension that owns nothing; the methods of `VectorBase` on vectors and views; pointer arithmetic out of a block, overlapping `memcpy` and broken `__restrict__` are undefined (`SubVecModel.lean`, `SubVecSpec.lean`) | simulation by lists and parts of lists (owner, origin, length), on top of the one of C79: a view points to the block of its owner, and the owner keeps its block while it keeps its length; loops that read what they write; the converse for views that dangle, overlap or begin before the start, after any program |
| C88 | the C interface as in C29 with the decoder of C71 (pool, hash table, arc cache, collected histories) in place of the decoder with values (`SttMemModel.lean`; scores in `SttMemSpec.lean`) | the front end is a fold over rows of scores, an equation that keeps faults; then the simulations of C71 row by row with the texts stored in between; the failure for all audio by the half-way decoder of C71 up to frame 40 and an induction for the decoder with values |
| C89 | `ce_stt_init` with the text of every status and the buffer of 2048 bytes (`MsgModel.lean`): every reader of C65 again, with the name of the file it reads; causes with their texts as an inductive list (`MsgSpec.lean`) | forgetting the texts gives the functions of C65 to C67 (`MsgForget.lean`), so that what is valid is read; a compositional predicate on the statuses of readers; `Format` keeps its last argument whatever the others contain (`MsgLemmas.lean`); a key names a file or the default is returned (`MsgReport.lean`) |
| C90 | the programs of C82 with the buffer of the text (`SayModel.lean`): `SetFormat`, `Process` and `ReadPcmHeader` again with their texts; for each call its causes with their texts (`SaySpec.lean`) | forgetting the texts gives the functions of C82 (`SayLemmas.lean`), so the program and its answers are the same; an invariant of the readers rules out `WaveReader is not ready`; induction over the program for the last call that failed (`SayRun.lean`); bounds on the lengths of decimals show that the texts fit |
| C91 | `main.cc` again with the exact bytes of its messages and the buffer of the interface (`TellModel.lean`); the causes of a refused audio file with their texts (`TellSpec.lean`) | forgetting the texts gives the program of C68; the buffer is unchanged by calls that succeed, so the text is that of the call that failed (C89, C90); induction over the lines of the script before the failure |
| C92 | reading and writing of `ConstFst` in the vendored OpenFst, byte for byte, with streams that fail, tables and alignment (`HclgModel.lean`); which graphs fit into a file (`HclgSpec.lean`) | each reader undoes its writer; a simulation of the reader on the file and on a part of it; inversion of all readers for accepted files |
| C93 | the beam search again, with lookups into the graph that may be undefined (`LookModel.lean`); the same calls on a graph as a mathematical object (`LookSpec.lean`) | the states of all tokens stay in a set that arcs do not leave, so each function equals the one on the graph, faults included |
| C94 | `tool/conv_chartok.sh` on code points: Perl's lines, `split ' '`, the expressions (`ChartokModel.lean`); words, pieces and letters as relations (`ChartokSpec.lean`) | the fields are the only words of a line; pieces are cut into themselves |
| C95 | the decoder of C17-C23 and the program of C68; `InBeam`, `Whole`, `Cheapest` are told from graph and scores alone (`BeamSpec.lean`) | every cutoff is the beam above the cost of some path, so a path in the beam survives (C54) and the answer (C19) costs no more; two runs with the same frames agree whatever bounds their loops; as long as sums stay finite, a path in the beam leaves a token after every frame, so that none is refused (`C95_alive`) |
| C96 | the interface of C29 before the end of the stream; `Fed` (calls and what they returned), `scoredFrames`, `Tick`, `Shown` as spec (`ShownSpec.lean`) | counting invariant of the batches; induction over the rows of scores with the latest update of the text; `feed_stream` of C29 removes the pieces |
| C97 | the program of C68, the directory of C78 and the graph file of C92 in one world; `Trained` says what the recogniser holds in terms of the sources (`DiskSpec.lean`) | the files are those of a model (`made_installed`, now also the proof of C78); shapes of layers do not depend on their numbers; composition with C68, C92 and C95 |
| C98 | `float` and `double` of IEEE 754 as rational numbers of the format, two infinities and NaN, every operation exact and then rounded to nearest, half to even (`IeeeRound.lean`, `IeeeModel.lean`); costs without rounding as relations (`IeeeSpec.lean`) | rounding: nearest, monotone, idempotent, relative error; laws of the arithmetic; error along a path by induction; a path inside the narrower beam of exact costs is inside the beam of computed costs, then C95, where no frame is refused by `C95_alive`; C68 for the line of the program; two sums on one float for the negation |
| C99 | `src/fbank.cc`, `src/srfft.cc` as in C27, C43, C61 with the arithmetic of C98 (`IeeeFbank.lean`); the C library is any that meets `LibLaws` (`IeeeFbankSpec.lean`) | a bound of 2^a on every intermediate value, carried through the transform as a predicate on arrays (`SrfftSize.lean`); the computed mel scale is near the real one, so each filter has a frequency inside and positive weights; sums of numbers that are not negative; monotone rounding keeps them inside the bounds |
| C100 | `src/nnet.cc`, `src/am.cc` as in C28, C86 with the arithmetic of C98 (`IeeeNnet.lean`), features of C99; the C library and BLAS are any that meet `NnLaws` (`IeeeNnetSpec.lean`) | a bound of 2^a on every vector between two layers, by induction on the network; a sum of numbers that are not negative stops growing 2^25 above the largest, so that no number of summands overflows it; the scale of the normalise layer is bounded by the largest square. Negation: the normalise layer divides by a sum that can be zero |
| C101 | the decoder of C06, the stages of C29, the program of C68, with the arithmetic of C98 to C100; conditions on the model in `EndSpec.lean`, `IeeeEndSpec.lean`, and on the backoff model behind the file of the language model in `EndLmSpec.lean`, `IeeeEndFilesSpec.lean` | every token is at a state the graph and the language model know, so nothing is looked up in vain; a silent arc is taken at most once per pair of states and depth, which bounds the loop over silent arcs by 2^62 (N+1)^k turns, whatever the order of insertion; costs of all paths are bounded by the number of arcs; the best token is inside the cutoff, and so is its best arc, so that no frame loses all tokens, however many there are. Negation for graphs with dead ends, from the invariant that a token is the end of a path over all frames. `C101_files`: backoff arcs that lead downwards make every look-up end at a level that has the word or at the unigrams, so the conditions on the language model in memory follow from conditions on the transducer that was converted. `C101_script`: the same for every line of a script |
| C102 | the models of C101, C98 and C71; `Compact` in `TotalSpec.lean` bounds the states | tokens are ends of paths (C18) and one for each pair of states (C17), and paths only get to states below K and M: so the states of the tokens are distinct elements of a product of two intervals. The rest composes C101 with C98 over one recogniser, and C101 with C71 |
| C103 | the FFT of C48 over `float` (`fftOps`): every operation rounds, the constants 1/sqrt 2 and 2 pi are the `double` literals of the code, `cos` and `sin` those of the library (`TrigLaws` in `IeeeFftSpec.lean`) | each complex number on the way is held within a bound of the form b M / 2^24, M its largest magnitude; every butterfly, rotation and halving adds a constant to b and doubles M or keeps it, so the split-radix recursion adds 66 per level; the running product for the real transform adds 20 per step. The exact values are those of C48 |
| C104 | the constructor and `ComputeFrame` of C61-C63 over `float` (`fbank lib`, as in C99); `cos`, `sin` as in C103, `log` right up to 2^-16 (`LogLaws` in `IeeeFeatSpec.lean`) | an error bound for each step: mean 403 A / 2^24, pre-emphasis 806 A / 2^24, window 11 / 2^24, windowed frame 900 A / 2^24, then C103 and the linearity of the transform; powers and filter sums have relative errors since nothing in them is negative, so the error of the logarithm is absolute; the filters by comparison of the quotient on the machine with the side of the triangle it was made from |
| C105 | the model of C46 over `float` and `double` of IEEE 754 (`IeeeCmvn.lean`) | the state as in C46 with an error that grows by 1000 M / 2^24 per frame; the count is exact; errors of the smoothing and of the final difference by steps. The drift: sums in multiples of 2^-10, features chosen such that steps up round up by one and steps down round to none; the sum the machine reaches in closed form |
| C106 | the layers of C30 over IEEE 754 (`IeeeNnet.lean`); the network in real numbers as a separate specification (`IeeeScoreSpec.lean`) | one lemma per layer, the input off by `e`; the sum of exponentials step by step, relative to the whole sum; the logarithm of the sum of exponentials moves no more than the exponents; induction over the network; with C104 from bytes to scores |
| C107 | C102 and C106 together; costs of paths in real numbers as a separate specification (`IdealSpec.lean`) | a path has a cost by the scores of the machine if it has one by the real scores (`Mild`), and they differ by frames × scale × error; a path inside a beam by the real scores is inside a beam wider by twice that; then C98, C102 |
| C108 | `src/nnet.cc` 22-307 and `MatMat` on blocks of memory (`NetMemModel.lean`), with the matrices of C51 and the vectors of C52, C82; parameters are objects in memory | what a matrix shows (`NetMemSpec.lean`); per row an invariant of the loop over elements, per matrix one of the loop over rows, per layer: one block freed, one allocated, nothing else touched; over the layers: two matrices with blocks of their own; then C30 |
| C109 | `src/am.cc` 66-164 on blocks of memory (`AmMemModel.lean`): the deque as a list of vectors with blocks, batches and scores as matrices; the loops of `src/ce_stt.cc` 317-358 around it, with `feats` and `log_prob` as objects of the call | the buffer as an invariant on blocks and content (`AmMemSpec.lean`, the list part is that of C28); each call exchanges the blocks of the buffer and of `log_prob` for others and touches nothing else, which composes; the network by C108 |
| C110 | `src/fbank.cc` 44-314 on blocks of memory (`FbankMemModel.lean`): buffer, window, scratch, feature and matrix as blocks, elements may be indeterminate; the calls of `src/ce_stt.cc` 296-314 around it | cells that may hold nothing (`FbankMemLemmas.lean`): each loop fills a stretch of cells and touches nothing else; a frame in both outcomes (`FbankMemFrame.lean`); blocks exchanged per call as in C109 (`FbankMemRun.lean`); the list part is that of C27 |
| C111 | `src/ce_stt.cc` 295-333 and 351-358 without bytes and decoder (`HearModel.lean`): the matrix of C110 gives its rows to C109; `samples`, `feats` and `log_prob` are destroyed at the end of the call | the two effects on memory composed (`HearLemmas.lean`): what each stage keeps, the other does not touch |
| C112 | `src/ce_stt.cc` 256-362 with both memories (`WholeModel.lean`): the stages of C109-C111 in front, the decoder of C71 behind | the front end does not depend on the decoder, so its run in memory (C111) gives the rows, and the decoder takes them as in C88 (`WholeLemmas.lean`); the number of rows before the end of the stream is `Am.due` in both |
| C113 | `src/srfft.cc` 74-122, 342-365 and the reads of the tables, on blocks of `int`, `float` and pointers (`SrfftMemModel.lean`) | the heap after the constructor is given explicitly (`SrfftMemLemmas.lean`: the seeds by simulation of the list model, a level as a grid of six rows filled column by column); the transform is a simulation of the list model in which the six pointers are at the place of the list's index (`SrfftMemRun.lean`) |
| C114 | nothing new: `WholeModel.lean` with the arithmetic of `Ieee.lean` | C100 gives the scores, C101 the answer with values, C102 the bound on tokens, C88 the decoder in memory and C112 the front end in memory (`WholeIeeeProps.lean`); the example in `WholeIeeeExample.lean` has the tables as the constructors make them |
| C115 | `src/pcm_reader.cc` 40-112 and `src/ce_stt.cc` 364-373 with the caller's object and file position (`HeaderModel.lean`) | a simulation shows that status and rest of the file are those of `PcmModel.lean`; one walk through the reads gives the fields at every end (`HeaderProps.lean`) |
| C116 | `tool/convert_words.py` 13-50 from the lines of the text to the bytes (`WordsTextModel.lean`) | the fields of a line as for the other converters; the slots, the loop over the words and the packing are shown to be those of `WordsModel.lean` for the ids the numbers mean, then C72; a byte below 128 in UTF-8 is a character (`WordsTextProps.lean`); a recogniser is returned only if the list was read (`WordsInitProps.lean`) |
| C117 | `src/matrix.cc` 223-262 and `src/vector.cc` 193-198 on memory (`MatrixMoreModel.lean`), the quotient of line 259 with IEEE rounding (`MatrixRandModel.lean`) | the invariants of C51: the elements visited so far have their new values, every other address its old one; monotone rounding for the bound 1 (`MatrixMoreProps.lean`, `MatrixRandProps.lean`) |
| C118 | `tool/extract_id2pdf.cc` 51-60 with Kaldi's class as an arbitrary map, the lines Python reads of a text file with its translation of line ends (`ExtractModel.lean`), `tool/convert_trans.py` (`ToolModel.lean`) | the printed text falls into its lines, which are a map in the sense of C75; the converter and the reader by C75 (`ExtractProps.lean`) |
| C119 | `src/vector.cc` 225-258 between types on memory, one heap for each type; the arithmetic of lines 232, 251 and 255 with IEEE rounding (`MixedModel.lean`) | the elements visited so far have their new values, every other address its old one; a number of `float` is one of `double` (`MixedProps.lean`) |
| C120 | `tool/mkgraph_hcl.sh` 48-49 with the status of the pipeline and the old content of the file (`MkgraphModel.lean`), `prune_lm.py` and `convert_unigram.py` (`ToolModel.lean`), the lines of files (`ExtractModel.lean`) | what the pruner prints has no ends of lines inside, so it is read as printed; then C73 and C74 (`MkgraphProps.lean`) |
| C121 | `tool/convert_fstfmt.py` 75-90, the text format (`FstTextModel.lean`), on top of the tables of `FstModel.lean`; how a weight is shown is a parameter | the text has no ends of lines inside of its lines, so the lines are determined; the counts in the first two say where the tables are; no number contains the `)` behind it (`FstTextProps.lean`) |
| C122 | `tool/compute-cer.sh` 3-10 and the pipeline of `tool/conv_chartok.sh` (`CerModel.lean`); the files are a function from names to contents and a set of directories; names are one word for the shell | false in general: a missing file is scored as an empty one (`C122_missing`), and a name with a directory is refused exactly if the directory is not below `/tmp` (`C122_directory`); proved for existing files in the current directory (`CerProps.lean`) |
| C50 | softmax etc. over ℝ | Mathlib real analysis |
| C51 | matrix ops | loop invariants |
| C53 | readers | witnesses + partial |
| C56,C57 | `stoi`, `strtol` base 0 on byte strings | decimal strings read as their value; witnesses for the rest |
| C59 | `StoreHypText`, `ce_stt_end_of_stream` | proved when there are words; negation on a witness |
| C55 | `Fst` lookups on loaded arrays | safety under an index-range condition; negation with an accepted file |

## 3. Trusted base

* Lean 4.33.0 kernel and the Mathlib modules imported one by one.
* Axioms: only `propext`, `Classical.choice`, `Quot.sound` (checked per theorem).
* The hand translation of C++ into Lean.  Not modelled: vendored `src/openfst` (except the files
  of `ConstFst`, `HclgModel`; elsewhere the decoding graph is an arbitrary abstract graph) and `src/gemmlowp`, cblas (matrix product is taken exact or abstract),
  libc/STL containers (taken to behave as specified), memory exhaustion, threads (code is single-threaded).
* The arithmetic of C98 (`Verif.Ieee`) is meant to be IEEE 754 with rounding to nearest and no extended precision
  (`FLT_EVAL_METHOD` 0, no `-ffast-math`, no fused operations).  It has one zero instead of two: the decoder does not divide by a
  cost and comparisons do not tell the zeros apart.  Outside the proofs the functions were compared with the arithmetic of
  the processor (Lean's `Float32` and `Float`) on 60000 random pairs, including subnormal and huge numbers, for sums,
  differences, products, quotients, comparisons and conversions, with no difference.
* C99 asks of the C library `LibLaws`: `cos` and `sin` of a number lie between -1 and 1 and `sin` of a small number is small,
  `log` from 2^-23 on lies between -16 and 89, `logf` is right up to 2^-20 between 1 and 16.  `someLib_laws` constructs one.
  The one zero of the model makes no difference here either: the features divide by 2, 400 and differences of mel values that
  are not zero, and take the logarithm of numbers of at least 2^-23.
* C100 asks of the C library and of BLAS `NnLaws`: the exponential functions of numbers up to 64 are at most 2^93, and at
  least 2^-93 from -64 on, `log` from 2^-93 on is at most 128 in size, `sqrt` is no more than 1.4 times the root and that of
  infinity is infinite, and a matrix product has no element above the bound that sums in whichever order have.
  `someNnLib_laws` constructs such a library.  A sum of squares is never the zero with a minus sign, so that the one zero of
  the model makes no difference to the quotient of the normalise layer.
* C101: `2 ^ 62 * (N + 1) ^ k ≤ fuel` says that the bound the model puts on the `while` loop of
  `Decoder::ProcessNonemitting` is large enough; the theorem holds for every larger bound, so the loop ends.
* Of the C library, for C103: `cos` and `sin` of numbers up to 8 are right up to 2^-24 (`TrigLaws`); `someLib` is a library
  that has this.
* Of the C library, for C104: in addition `log` of numbers from 2^-23 on is right up to 2^-16 (`LogLaws`); `someLib` has this,
  too.
* C106 assumes of the C library and of BLAS (`ScoreLaws`): `exp` up to 64 right up to 2^-22 of its value and 2^-118,
  `log` between 2^-94 and 2^120 right up to 2^-16, an element of a product of `n` terms right up to (n + 1) 2^-23 times the sum of
  the sizes of the terms and 1.  `someNnLib_close` shows a library that has these properties.
* C108: `cblas_sgemm` by its documentation (`NetMem.sgemm`): too small leading dimensions end the program, a result that
  overlaps with a factor is undefined, `C` is not read because beta is zero; a row of the product depends on the row of `A`
  and on `B` only (`RowWise`), as in C30.
* C109: `std::deque` by the standard (`AmMem.popFront`, `endOfStream`): an element keeps its place when others are added at
  the end, `pop_front` runs the destructor of the first; the memory of the deque itself is not counted.
* C110: an indeterminate `float` may be read and copied inside the FFT's scratch buffer (`FbankMem.scratch`): it has some
  value. Everywhere else in the model a read of a cell that has not been written is undefined.
* Per source file, what is in the model (each definition cites its lines):

| file | modelled | not modelled |
|------|----------|--------------|
| `hashtable.h/.cc` | all | - |
| `pool.h` | `Pool`, `GcPool` | alignment of the storage |
| `fst.cc/.h` | readers (with their texts in `MsgModel`), `Fst`, `DeltaLmFst`, `CachedFst` | |
| `decoder.cc/.h` | all, twice: with values (`Decoder*.lean`) and with its memory (`Mdec*.lean`) | the graph library; debug messages (compiled out); warnings only in C84 |
| `util.cc/.h`, `strlcpy.cc` | string functions, `Format`, `ReadLine`, binary reads | `fopen`/`fclose` |
| `configuration.cc`, `symbol_table.cc` | all | file system |
| `pcm_reader.cc` | all | - |
| `fbank.h`, `fbank.cc` | all: constructors (window, mel filters), framing, windowing, power spectrum, `Compute`, `Process`; `Process` also on memory (`FbankMemModel`, C110) | destructors of the tables; the warning about NaN only in C84; rounding in C61-C63; on memory: the FFT as a function on the contents of its two arrays |
| `nnet.cc`, `am.cc` | layers, `Propagate`, readers of layers, batching, `AcousticModel::Read`; layers, `Propagate` and batching also on memory (`NetMemModel`, C108; `AmMemModel`, C109) | on memory: layers as list elements, not objects behind pointers; the inner blocks of `std::deque` |
| `vector.cc`, `matrix.cc` | `Init`, `Resize`, element-wise operations, `Read` | memory layout (stride), cblas |
| `ce_stt.cc` | `StoreHypText`, `CheckParamUtt`, `ce_utt_init`, `ce_stt_process`, `ce_stt_end_of_stream`, `ce_stt_init`, the destroy functions, the blocks made and deleted by all of these, programs that call them in any order | message texts in `MsgModel` and `SayModel` only; what objects allocate inside only in `HearModel` and `WholeModel`; threads; addresses used again |
| `openfst` (`const-fst.h`, `fst.h`, `fst.cc`, `mapped-file.cc`, `util.h`, `util.cc`, `symbol-table.cc`) | `ConstFst<StdArc>::Read` and `WriteFst`, headers, symbol tables inside of the file, lookup of final weights and arcs | messages; memory mapping; properties; running out of memory except sizes of 2^63 and more |
| `main.cc` | all: usage, `ProcessAudio`, `process_scp`, choice by the suffix, exit codes | message texts in `TellModel` only; `fread` reads whole pieces except the last; `PK_WARN` on standard output only in C84 |
| `matrix.h`, `matrix.cc` 20-292 (memory level: `MatrixModel`) | CopyFromMat, Transpose, Init, Resize, Destroy, SetZero, Range, Row, operator(), SimpleMatMat; in `MatrixMoreModel` SetRand, Scale and SubMatrix of a plain pointer (C117) | running out of memory; `Swap` and `MatMat` only in `NetMemModel` (C108) |
| `vector.h`, `vector.cc` 7-79, 130-170 (memory level: `VecMemModel`) | constructors, moves, `Resize`, `Destroy`, `Swap`, `Set`, `SetZero`, `CopyFromVec`, `operator()`; views (`SubVecModel`): `SubVector`, `Range`, `Scale`, `Add`, `ApplyPow`, `MulElements`, `AddVec` | `SubVector` of a plain pointer (rows of matrices); running out of memory |
| `srfft.h`, `srfft.cc` | all: constructor, tables, recursion, bit reversal, complex and real transform (with the tables in memory and the destructor in `SrfftMemModel`) | `int` overflow of indices (lengths below 2^30); the two halves of the array are separate arrays during the recursion; rounding |
| `matrix.cc` 325-420 (quantisation) | all | rounding; a destination with padding; in gemmlowp only the integer arithmetic of one element is modelled, not the blocks, threads and vector instructions |
| `cmvn.cc` | all (not called by the recogniser; only its test uses it); in C46 exact, in C105 with the rounding of IEEE 754 | products and sums fused into one operation |
| `tool/prune_lm.py`, `convert_unigram.py`, `convert_trans.py`, `convert_am.py`, `convert_fstfmt.py`, `convert_cmvn_stats.py` | all, on decoded text | messages; what is written before an exception; `int` with underscores or digits of other scripts; the arguments |
| `tool/conv_chartok.sh` | all, on code points | text that is not UTF-8 |
| `tool/mkgraph_hcl.sh` | lines 48-49 (`MkgraphModel`) | all other lines, which call programs of Kaldi |
| `tool/extract_id2pdf.cc` | what it prints (`ExtractModel`) | Kaldi's reading of the model; its options; the message when Kaldi throws |
| `tool/compute-cer.sh` | lines 3-10 (`CerModel.lean`) | `compute-wer`, a program of Kaldi, and names that are several words for the shell |
| `tool/compute_fbank.cc` | - | all: it uses `pk_vector_t` and `pk_matrix_t`, which the sources no longer declare, so that it does not compile |
| other `tool/*.py` | writers of the binary formats; `convert_words.py` from text to bytes | decoding of UTF-8 when a text is opened; `int` of digits of other scripts and of underscores |

## 4. Findings: where code and properties disagree

Each is established by a theorem (negation on a witness or for all inputs).

* C03: `HashTable::Find` of an absent key can hit the probe assertion.
* C06: after `Clear` of a pool with two or more blocks, a later `Clear` destroys objects that are already dead.
* C07: `GCPool::GC` does not visit the slot handed out last; a mark left there by one collection makes the next
  one free nodes that are still reachable.
* C10/C11/C55: a file without arcs cannot be read back; a negative state count of -2^29 passes the size check
  modulo 2^32 and the resize throws; an accepted file may contain state indices outside the arc array, lookups
  then read out of bounds.
* C13: a cycle of backoff arcs makes the lookup run forever.  C14: with duplicate labels at state 0 the unigram
  table and the binary search differ.  C15: the cache hash overflows `int32_t` for large state numbers.
* C20: `BestPath` adds the graph's final weight twice (and once even before the end of the stream).
* C23: a frame fed after the beam died is undefined behaviour (`prev_toks_[0]` on an empty vector); `ce_stt_process`
  ignores the `false` that announces it.  A negative transition id in the graph, or a negative number in the
  transition map, reads in front of a table: `Vector::operator()` asserts only the upper bound of an index.
* C24: `Initialize` does not clear `state_idx_`; a second `Initialize` is undefined behaviour.
* C52: tokens that are replaced in `InsertTok` or pruned by the weight cutoff are never returned to the pool; the
  leak is unbounded.
* C36: an argument containing `{}` captures the next argument of `Format`.
* C38: a key whose value is the internal "not found" string is reported missing.  C56: `GetInteger` throws (through
  the C API) on a malformed or too large value, accepts `12x` as 12, and reports `-2147483648` as missing.
* C40: a symbol file without final newline is refused with `IOError`; `ReadLine` reports the end of such a file as
  an error (the configuration reader avoids this by asking `Eof` first; `process_scp` does not).
* C53: a symbol line with id -1 empties the table and writes before the array; other negative ids throw.
* C57: ids with leading zeros are read in octal.
* C35: `Split` with an empty separator never ends (no caller passes one).
* C25: a piece of 2^29 bytes or more (8 bit samples) makes `Vector::Init` compute its byte size modulo 2^32:
  `bad_alloc`, or for 2^30 bytes an empty block that is then written past.
* C26: byte rate and block alignment are checked as if there were one channel, so that documented headers with
  several channels are rejected and wrong ones accepted; `sample_rate * bits_per_sample` can overflow.
* C27: `Fbank::Process` with an empty wave, meant to do nothing, aborts in `Matrix::Init` (0 x 40 matrix; the API
  returns earlier in that case).  A NaN energy aborts in `ApplyLog`.
* C44: above 2^30 the rounding overflows `int32_t` (never reached: the only call is with 400).
* C28: `AcousticModel::EndOfStream` does not empty its buffer, so that a second end of stream scores frames again;
  `chunk_size = -1` in the configuration is taken for the internal code `kBatchSizeAll` and repeats frames.  The
  matrix product comes from cblas: that its rows do not depend on the number of rows is an assumption (`RowWise`).
* C30: with no more than L + R rows `NarrowLayer` copies its input unchanged and clamped rows reach the output
  (never reached through `AcousticModel`).
* C31: an empty vector can be written but not read back (`fread` of size 0 counts as failed).
* C32 is false: `Matrix::Read` drops the status of `row_read.Read`.  Exactly the cuts before byte 28 (the elements of
  the first row) are rejected; later cuts give status OK with copies of the last complete row, or with indeterminate
  memory if the first row is cut.  In a network file (C58) the vector behind the matrix still makes the read fail.
* C53: a vector with negative dimension d and size 4 d + 4 passes the size check and aborts; so do matrices with
  negative dimensions, or with one dimension zero; dimensions with too large a product overflow `int`.
* C29: the result does not depend on the cutting, but the kind of fault can: the features of a whole piece are computed
  before its first frame is decoded.
* C43: `ce_stt_end_of_stream` reads `utt->internal` before `CheckParamUtt` looks at `utt`; `ce_utt_init` uses the
  recogniser without a check, so that a failed `ce_stt_init` followed by `ce_utt_init` is undefined.
* C59 is false: `StoreHypText` stores the likelihood only with a non-empty text.  An utterance without a final result
  reports the likelihood of the last partial result.
- C47: `FindMinMax` starts the maximum at `numeric_limits<float>::min()`, the smallest positive number, so a matrix of
  negative entries is quantised with the range up to zero (`C47_negative`: -1001 and -1000 get the same code). The zero
  point is converted to `int32_t` unchecked: undefined for a constant positive matrix (`C47_constant`, a division by
  zero) and for a narrow range far from zero (`C47_fails`).
- C50: neither `ApplySoftMax` nor `ApplyLogSoftMax` subtracts the largest entry before exponentiating. An input of 89
  or more overflows `float`: softmax yields NaN for it and log-softmax minus infinity for the whole row
  (`C50_overflow`). The normalise layer turns a zero row into NaN (`C50_zero_row`).
- C51: the header says that `Transpose` works for non-square matrices; it asserts that they are square
  (`C51_transpose_not_square`). `SimpleMatMat` zeroes `C` first, so a `C` that is also an operand gives zeros
  (`C51_product_alias`). `Resize` with `kCopyData` drops the padding asked for by `stride_type`, because the temporary
  matrix is made without it (example after `C51_resize_copy`).
- C48/C49: the comment of the class `SRFFT` says that the argument of the constructor is the number of complex points `N`
  and that the array has `2 N` elements; it is the number of real points, and a call with `2 N` elements aborts
  (`C48_documented_size`). The comment promises a crash unless `N` is a power of two; `2^k + 1` is accepted and taken for
  `2^k` (`C49_sizes`). `malloc(sizeof(float *) * logn_ - 3)` lacks parentheses; it asks for more than is needed.
* **C64**: `SRFFT::Compute` in the backward direction works on `data` before `ComplexFFTCompute` checks `data_size`; an array that is too short is read past its end (`C64_backward_fails`).  The forward direction checks first.
* **C62**: `fbank.cc` uses its own value of twice pi (6.28318530718) where `srfft.cc` has 34 digits; the window deviates from the Hamming window by less than 1e-12, which is far below the precision of `float`.
* **C61**: the loop over FFT bins stops before the bin at 8000 Hz; no harm, as the weight of every filter is zero there.
* **C66**: a value of `left_context`, `right_context`, `chunk_size` or `num_pdfs` that is not a number makes `std::stoi` throw, and the exception leaves `ce_stt_init` (a C function) instead of NULL being returned (`C66_malformed_number_throws`).  A negative prior aborts the program in `ApplyLog` (`C66_negative_prior_aborts`).
* **C67**: `ce_stt_destroy` deletes what the structure points to but not the structure; `ce_stt_init` forgets the structure when it fails.  One block leaks per call (`C67_structure_leaks`).  `ce_stt_destroy(NULL)` is undefined (`C67_destroy_null`).  Utterances give everything back.
* **C69**: a script whose last line lacks its newline is processed completely, and then the program fails with "EOF already reached" and exit code 1 (`C69_missing_newline_fails`).
* **C70**: `subchunk2_size` is read and ignored.  Everything behind the 44 bytes of the header is decoded as audio, also chunks with metadata that many programs write behind the data (`C70_rest_is_heard`).
* **C71**: the fault of C07 reaches the user.  On a graph with two words before a loop, `BestPath` after 21 frames reads a node of the history that the second collection has freed (`C71_words_lost`); after 20 frames the answer is right.  The language model must return arcs with the label asked for, or the cache would return wrong arcs; the one of the recogniser does (`C71_recogniser_labels`).
* **C72**: `tool/convert_words.py` still writes the binary format of an earlier version (`SYM0`); `SymbolTable::Read` reads text.  No file the converter makes is accepted (`C72_converted_words_rejected`).
* **C73**: a language model of words only is what `convert_unigram.py` needs and reads, but `prune_lm.py` fails on it with "unexpected end-of-file": it takes `\end\` after the words for the start of the longer n-grams (`C73_words_only_refused`).  Its own output is such a file, so pruning twice fails (`C73_not_twice`).
* **C74**: the number of `<s>` in the language model is replaced by zero; a vocabulary without `<s>` is refused (`C74_needs_start`), with the message that the word is unexpected.  A word of the vocabulary that the language model lacks gets an infinite cost without a message.
* **C75**: a transition id without a line gets pdf 0 without a message (`C75_transition_map`); a blank line at the end is refused (`C75_blank_line_refused`).
* **C76**: `convert_am.py` drops the line of the output node.  If the output is taken from an inner node, the layers behind it are applied as well (`C76_output_ignored`, `C76_output_fails`).
* **C76**: it compares the input of a node with the name of the component before it instead of the name of the node; networks whose nodes and components have different names can be accepted with their layers in a wrong order (`C76_names_fail`).
* **C76**: auxiliary layers share a dictionary with the components; a component named `X_splice` or `X_narrow` replaces the layer that puts frames together (`C76_auxiliary_name_fails`).  Names with `-` are refused inside `Append` although they are accepted elsewhere (`C76_minus_refused`).
* **C76**: `verify` compares the sizes of matrices only.  A bias, batch normalisation (`BlockDim` smaller than `Dim`) or prior of another size is written, and the recogniser aborts on it (`C76_sizes_unchecked`).  Matrices are compared with the matrix before them (`C76_matrices_fit`), the first one with nothing (`C76_first_matrix_unchecked`).
* **C77**: the network file stores its left and right context, `Nnet::Read` reads them, and nothing uses them; the recogniser takes the contexts of the configuration and never compares.  With the right sum but a wrong split every score is silently that of another frame (`C77_shift`, `C77_shift_fails`); with short batches a wrong sum passes too (`C77_short_batch_fails`).  `num_pdfs` of the configuration is read and never used.
* C79: the move-assignment of `Vector` never frees the block of the vector it assigns to (also when a vector is assigned
  to itself: its block is lost); `Matrix` can be copied and moved by the implicit copy constructor, both copies free the block.
* C80: `convert_cmvn_stats.py` counts numbers but does not look at the shape of the matrix; words that are no numbers are
  dropped without a message (`C80_shape_unchecked`).
* C81: `MatMat_U8U8F32` overflows `int32_t` for matrices far from zero (`C81_overflow_fails`: entries near 1000, 40 terms);
  it passes the number of columns where gemmlowp wants the distance of rows, so a result with padding is filled wrongly
  (`C81_padding_fails`); it refuses matrices of one element (`C81_single_refused`).
* C82: `ce_stt_last_error` reports the failure of any utterance (`C82_message_shared`).  After `ce_stt_destroy` an utterance
  of the recogniser can be destroyed and looked at, but feeding it a sample or ending it is undefined
  (`C82_orphan`, `C82_orphan_feed`); a second `ce_stt_destroy` does nothing, a second `ce_utt_destroy` is undefined.
* C84: `PK_WARN` (`src/util.h` 40-41) writes to `std::cout`, where `main.cc` writes its results.  A large language model
  without an arc for `<s>` puts a warning before every result (`C84_no_begin`); a graph with a word that the language model
  lacks puts one wherever the search meets it (`C84_unknown_word`).  C68 to C70 are about the output without warnings.
* C85: `GetCutoff` says "Exit if NAN found" (`src/decoder.cc` 206-207) but looks at the best cost only, which is never NaN.
  `InsertTok` compares with `toks_[i]->cost() > cost`, so a token with a NaN cost keeps its state and a better path to the
  same state is lost, unreported (`C85_nan_score_unnoticed`).  After a frame of NaN the answer is empty and one of the next
  two frames reads an empty vector (`C85_frame_without_numbers`).  With more than 30000 tokens a NaN in the sample makes
  the call of `std::nth_element` (215) undefined (`C85_sample_with_nan_undefined`, `C85_nan_sample_reached`).
  Earlier versions of C54 assumed laws that no arithmetic with NaN satisfies; they now hold of IEEE 754.
* C86: `ApplyLogSoftMax` (`src/vector.cc` 109-122) does not take out the largest entry first, so one activation of 89 or
  more makes every score of the frame minus infinity (C50).  `ce_stt_process` ignores what `Decoder::Process` returns
  (`src/ce_stt.cc` 322-327): the frame after next reads an empty vector, and if there is none the answer is empty,
  whatever was recognised before (`C86_eighty_nine`, `C86_lost_frame`).
* C87: the assertion in the constructor of `SubVector` (`src/vector.h` 239-241) is not equivalent to what its comment says:
  an origin or a length below zero passes (`C87_negative`), and the sum may overflow (`C87_sum_overflows`).  Nothing
  notices views that outlive their vectors (`C87_dangling`).  `CopyFromVec` between overlapping parts and `AddVec` of a
  vector to itself are undefined (`C87_overlap`: `memcpy`, `__restrict__`), `MulElements` of overlapping parts computes
  other products (`C87_product_of_overlapping`).  The callers in `/repo` do none of these.
* C88: the defect of C71 reaches the caller.  For a model with two words on epsilon arcs, every audio of 3600 samples or
  more makes `ce_stt_process` or `ce_stt_end_of_stream` read a word history that was collected (`C88_words_lost`): between
  21 and 39 frames when the stream ends, from 40 frames on when the text is stored at frame 40 (`src/ce_stt.cc` 325-328).
  Up to 20 frames nothing goes wrong (`C88_short_utterances`).
* C89: `Unable to find key 'fst' in `, and the same for `symbol_table` and `original_lm`, end where the name of the
  configuration should be: the empty path is printed (`src/ce_stt.cc` 69-73, 89-93, 119-123;
  `C89_configuration_not_named`).  `Value cound not be empty: {}` has one place for two arguments, so that the line is not
  shown (`src/configuration.cc` 45; `C89_empty_value_hides_line`); it is printed for `k==`, while `k=` is an
  `Unexpected line`.  The texts `SpliceLayer: unexpected num_indcies`, `section_size == …`, `2 column expected …`,
  `unexpected number string` and `unable to find BOS/EOS symbol` name no file (`C89_file_not_named`).  A later success
  leaves the text of an earlier failure (`C89_success_keeps_text`).
* C90: a header with a wrong `block_align` is refused with a text that says that the byte rate was found
  (`block_align == 2 expected, but 32000 found: `): `bytes_rate` is passed to `util::Format` where `block_align` was meant
  (`src/pcm_reader.cc` 95-101; `C90_alignment_not_shown`).  `ce_read_pcm_header` gets a `FILE *` and the
  reader has no name for it, so all its texts end in an empty name.  A wrong tag with `{}` in it takes the place of the next
  argument.
* C91: `Fatal` (`src/main.cc` 15-18) prints `ce_stt_last_error()` without the name of the audio file, and the reader of the
  header has no name (C90): a file in a script that is refused because of its header or format is not named, and the result
  is the same for any other file with these bytes (`C91_audio_not_named`).  The messages of failures go to standard output,
  among the results.
* C92: `ReadType` of a string copies a character that was not read when the file ends (`src/openfst/include/fst/util.h` 63-67):
  a graph file that is cut after 5 to 12 or 14 to 24 bytes is undefined behaviour (`C92_cut_exact`).
* C92: `ConstFstImpl::Read` checks nothing behind the header: a start state or the end of an arc outside of the graph is
  accepted and read outside of the array later (`C92_unchecked`, `C92_outside_ub`).  A number of states with bit 31 set throws
  `std::bad_alloc` through the C interface (`C92_states_throw`); 2^60 - 1 arcs make an empty block and the file is written
  behind it (`C92_arcs_overrun`).
* C93: the states named in a graph file are never checked: a start state that does not exist, or an arc to a state that does not
  exist, is undefined behaviour as soon as the decoder gets there (`C93_start_outside`, `C93_arc_outside`); the empty graph is
  read without an error and ends the process by an assertion (`C93_no_start`).
* C94: the expressions for words that are kept are not anchored: a word with `[` and a later `]` anywhere in it is scored as one
  character (`C94_brackets_matter`).
* C95: the beam search is not exact: `C95_search_error` is a graph with two paths of which the cheaper one is lost.
* C96: `StoreHypText` is called every twenty frames with a decoder whose stream has not ended; the text then ignores the costs
  of ending, but the likelihood includes them, once (C20): it is infinite whenever the best path is not in a final state
  (`C96_final_cost`).
* C98: costs are summed in `float`; of two paths of costs `2 ^ 24 + 1` and `2 ^ 24` the dearer one may be the answer
  (`C98_rounding_error`).  Writing out the arithmetic also showed that `FracLaw`, a law C22 and C23 ask of division, was false
  of IEEE 754 for numbers beyond the range of `float`; it now speaks of numbers below 2^64, as `size_t` has them.
* C99: `src/fbank.cc` 19 and `src/srfft.cc` 38 define different numbers under the name `M_2PI` (6.28318530718 and
  6.283185307179586…); the window is computed with the less accurate one.  Not a fault that can be heard.
* C100: `NormalizeLayer::Propagate` (`src/nnet.cc` 162-176) divides by the sum of the squares of the row without a floor.
  If none of the numbers in front of the rectifier is above zero, the row is zero and becomes NaN (`C100_normalize`); the
  scores of the frames that see it are NaN (what NaN does to the decoder: C86).  Kaldi, whose networks the converter reads,
  has a floor of 2^-66 there.  `C100_nan` has a network of number weights for which this happens on all audio.
* C101: `ce_stt_process` (`src/ce_stt.cc` 322-327) ignores that `Decoder::Process` refused a frame, and `Process` on a
  decoder without tokens takes the first of none (`src/decoder.cc` 181-190): with a graph that has dead ends, a recording
  that outlasts its paths is undefined behaviour, not an error (`C101_dead_end`, `C101_needs_path`).  A cycle of arcs that
  consume nothing with a cost below zero keeps the loop of `ProcessNonemitting` busy until rounding stops the cost from
  falling; the theorem asks for graphs without such cycles.
* C105: `CMVN::ComputeStats` (`src/cmvn.cc` 62-67) says that the computation is done in `double`, but keeps the sums as
  `float` from one frame to the next.  Each frame adds up to half a unit of the last place of a sum over 600 frames, and the
  errors stay: after k times 18 seconds the normalised features can be off by k/1024 (`C105_drift`), however constant the
  input has been since.  Sums kept as `double` would be off by 2^29 times less.
* C113: `tab_ = (float **)malloc(sizeof(float *) * logn_ - 3)` (`src/srfft.cc` 96) means `sizeof(float *) * (logn_ - 3)`; it
  allocates 21 bytes more than that, so nothing overflows.  `SRFFT` has pointers it frees and the implicit copy constructor
  (`src/srfft.h` 33-42): a copy and the original free the same blocks (`C113_copy_frees_twice`).  Nothing in the program copies one.
* C115: `ReadPcmHeader` stores the number of channels, the sample rate and the sample size into the caller's object before the
  header is accepted (`src/pcm_reader.cc` 73, 77, 102).  A caller that uses the object after NULL gets a mixture of old and new
  fields, or, for a file with a `LIST` chunk before the audio, a good format with the file in the middle of that chunk
  (`C115_refused_but_filled`).  `main.cc` checks the answer.
* C120: line 49 of `tool/mkgraph_hcl.sh` does not look at the status of `convert_unigram.py`; when that refuses the vocabulary, the script
  goes on with the `lm.1order.bin` of an earlier run (`C120_stale`), and with a part of a vector when a cost is no float (`C120_torn`).  A language model of words only ends it with 22 although the converter
  could read the model (`C120_words_only`).  Line 34 calls `prune_lm.py` in the current directory, lines 48-51 that of `$POCKETKALDI_ROOT`.
* C122: `tool/conv_chartok.sh` has the status of `perl`, not that of `cat`, so `tool/compute-cer.sh` does not notice that the file of
  hypotheses is missing and scores a file without utterances (`C122_missing`).  Line 7 puts `/tmp/` before the name, so a name with a
  directory is refused unless the directory is below `/tmp` too (`C122_directory`).
* C116: `tool/convert_words.py` 18-19 means to report a line without two fields and go on, but line 20 raises `ValueError`; a
  negative number is not noticed and replaces a word counted from the end (`C116_negative_overwrites`).

# Formal model of zopfli-rs in Lean 4: design

## 1. Layout

* `lean/Verif/Spec/*` - small specifications, written from the RFCs or from the English properties, independent of the
  code: `Inflate` (strict RFC 1951 parser and decoder), `Container` (RFC 1952 `gunzip`, RFC 1950 `zlibDecode`, CRC-32,
  Adler-32), `Shape` (Kraft sums as rationals, where the body of a container lies, ...), `Session` (calls, endings, sinks,
  readers, the recording sink `spy`), `Items` (LZ77 items and what they stand for), `Layout` (pieces of a stream),
  `Search` (match questions and answers).
* `lean/Verif/Model/*` - the model: one module per Rust file, one definition per Rust function, each with a comment
  citing file and lines in `/repo`.
* `lean/Verif/Proofs/*` - helper lemmas.
* `lean/Verif/Props/*` - the property theorems (listed in `MANIFEST.json`), each followed by a non-vacuity example.

| Rust | model |
|---|---|
| `src/deflate.rs` | `Model/Deflate` (block encoders, `deflate_part`), `Model/BlockSize` (size calculators, tree description, histogram smoothing), `Model/Writer` (`BitwiseWriter`), `Model/Encoder` (`DeflateEncoder`, `set_chunk`, `compress_chunk`, `finish`, `Drop`) |
| `src/gzip.rs`, `src/zlib.rs` | `Model/Encoder` |
| `src/lib.rs` (`compress`, `Options`, `Format`) | `Model/Compress`; `compressFrom` in `Model/Buffered` |
| overflow checks of `BitwiseWriter`, of the 32-bit block sizes and of the `i32` differences | parameter `Checks` of these functions and of everything above them, up to `main` (`releaseBuild` where nothing else is said; `checkedBuild`) |
| `new_buffered` (deflate.rs, gzip.rs, zlib.rs) | `Model/Buffered` |
| `src/io.rs` (`no_std` `Write`, `&mut [u8]`, `Vec`) | `Model/Io`; slices as parts of a memory in `Model/SliceMemory`; sinks with a `write_all` of their own in `Model/OwnSink`; the provided methods on encoders in `Model/Handing` |
| `src/lz77.rs` | `Model/Lz77` |
| `src/hash.rs` | `Model/Hash`; the raw memory in `Model/Memory` |
| `src/cache.rs` | `Model/Cache` |
| `src/squeeze.rs` | `Model/Squeeze`; reused memory in `Model/Memory` |
| `src/blocksplitter.rs` | `Model/BlockSplitter` |
| `src/katajainen.rs` | `Model/Katajainen`; with the arena in `Model/Arena` |
| `src/tree.rs`, `src/symbols.rs` | `Model/Tree`, `Model/Symbols` |
| `src/main.rs` | `Model/Main` |
| `src/util.rs` | constants in `Model/Basic` |
| `src/iter.rs` (`flag_last`) | `addNonCompressedBlock` of the main model uses the list it yields; the lazy iterator itself over `Peekable` is in `Model/Direct` (C78) |
| `src/math.rs` (`no_std` builds) | `Model/Math` |
| `f64`/`f32` | `Model/Float` (interface), `Model/Ieee` (IEEE 754 binary64/binary32 over exact rationals) |

## 2. How Rust is rendered

* A Rust computation that may panic (index out of range, slice out of range, `assert!`, `unwrap` on `None`, explicit
  `usize` underflow used as an index) or loop forever is a Lean computation in `Option`; `none` is "panicked or did not
  terminate". Slice indexing `a[i]` is `a[i]?` in that monad. Potentially endless loops are `loopM`, a
  `partial_fixpoint` definition (non-termination = `none`), or structural recursions on the code's own counter. A theorem
  of the shape `f x = some y ∧ ...` therefore contains panic-freedom and termination.
* Debug assertions are executed: every `debug_assert!` of the code is a panic in the model (a release build merely skips
  these checks, which change nothing when they pass), so panic-freedom of the model says that they all hold. The
  assertions that costs are not negative (squeeze.rs 315, 333, 343) are executed through `FloatOps.costOk`, which is
  constantly true in `ieee log2` and real in `ieeeDebug log2`, because they hold only for a logarithm that does not
  decrease on the integers up to a bound (`Log2Mono log2 bound`); C40 is the theorem about `ieeeDebug`. Assertions not rendered because they are true by the
  shape of the model: deflate.rs 396 (implied by the slice bounds), 1044 (`expected_data_size` is zero at every call),
  lz77.rs 193, 220, 254 (implied by an array access that follows), 534 (compares a value with what it was read from).
* Release builds: overflowing arithmetic wraps (builds with overflow checks are the subject of C44). `usize` arithmetic is in `Nat`
  (every `usize` quantity is an index into, or a count over, data already in memory; `Fits` bounds a single buffer by
  2^47 bytes, the user address space of x86-64 and AArch64; C69 and C71 are about `usize` of any width in the computations that are not about
  positions); the 32-bit and 16-bit computations that can wrap are
  modelled with explicit `% 2^32`, `% 2^16`.
* `&mut` parameters become returned values. Logging (`debug!`, `trace!`) is the subject of `Model/Logging` (C66); the other models have only the
  computation done by `print_block_split_points` when it is enabled, which could panic.
* Floating point: the model is generic in a record `FloatOps` of carrier types and the operations the code uses.
  Internal theorems hold for every `FloatOps` satisfying `FloatLaws` (costs stay finite). The property theorems are
  stated for `ieee log2`: binary64/binary32 with round-to-nearest-even, subnormals, overflow to infinity and NaN, defined
  over exact rationals, where `log2` is any function with `Log2Ok log2`: for an integer argument `1 ≤ n < 2^60` it returns
  a finite number between 0 and 64. (The C library's `log2` is not specified to the last bit; nothing else about it is
  assumed, except that it is a function.) `floorLog2_ok` shows that the assumption can be met, and C45 that
  the crate's own logarithm, which `no_std` builds use, meets it.
* Output: every function that takes `&mut BitwiseWriter<W>` only appends to it and propagates its errors with `?`; it is
  modelled as computing the list of writer operations it performs (`WOp`: add one bit, flush partial bits, add bytes).
  Executing such a list on a `BitwiseWriter` over an arbitrary sink, stopping at the first error, is
  `BitwiseWriter.execAll`. Interleaving computation and output is not observable because no computation reads the writer
  (except `bytes_written()` for a log message). This is a theorem, not an assumption: `Model/Direct` and
  `Model/DirectEncoder` have the same functions computing and writing by turns, and C78 says that both do the same.
* Sinks and readers are arbitrary state machines (`Sink σ`, `Reader ρ`): each call returns a result and a new state.
  `Reliable` = accepts at least one byte of every non-empty buffer, interrupts only finitely often in a row and never
  fails; `Honest` = never claims more bytes than it was given and interrupts finitely often in a row; it may fail at
  any time with any error. `spy S` is `S` with a notebook of the bytes accepted up to the first failure and of that failure
  (`spy_transparent`: it changes nothing else).
* External crates: `crc32fast`, `simd_adler32` are modelled by the checksum definitions of the RFCs, updated
  incrementally as the code does; `bumpalo` arena nodes are immutable values (C64 shows that the nodes in the arena behave like that); `std::io::Write::write_all`, `BufWriter`
  and `std::io::copy` are modelled from their documented behaviour; for `copy`, both ways it works: `compress` is for
  readers without a copying method of their own (files, sockets, user types), `compressFrom` for those that lend their
  buffer (`&[u8]`, `BufReader` with a large buffer). `VecDeque<u8>`, which `copy` treats as two slices
  in one vectored write, is modelled for encoders with a `BufWriter` (C74) and without (C70).

### Not modelled

The `Error`/`Display` impls, `ErrorKind` beyond the kinds the code distinguishes, and `by_ref` of `io.rs` (it returns its argument; `Write for &mut W` is in `Model/OwnSink`, the provided methods on an encoder in `Model/Handing`); `Debug`/`Clone` impls; the rendering of log messages as text, and loggers that panic; sinks that panic, except in sessions with and without a buffer and in `compress` (C67, C68, C73); the `fuzz` and `nightly`/bench code; the final log message of `src/main.rs` (no logger is
installed, so it is never evaluated; if it were, `filesize - out_size` would underflow for a file that does not shrink). The reuse of hash tables and buffers is modelled by values, which C64 justifies. Memory exhaustion is not modelled.

## 3. Properties: what is modelled, how it is proved, status

All properties are stated in `properties.jsonl`; the theorems are in `Props/*` and listed in `MANIFEST.json`.

| id | modelled | proof | status |
|---|---|---|---|
| C01, C04, C05, C35 | everything below `DeflateEncoder`; `compress` with `BufWriter` | hash-chain invariant → true matches → squeeze/trace/follow_path give a valid parse of the chunk → block encoders are inverted by the spec decoder → induction over blocks and writes | proved |
| C02, C03 | `GzipEncoder`, `ZlibEncoder` | C01 + streaming checksum = checksum of the concatenation | proved |
| C06, C16 | `get_dynamic_lengths`, `encode_tree` | from C09; the spec parser rejects anything else | proved |
| C07 | stream structure | a spec parser returning the list of blocks | proved |
| C08 | LZ77 stores | invariant of the parse, then what the spec decoder saw | proved |
| C09 | `katajainen.rs` | invariant of the lazy package-merge lists | proved |
| C10 | `katajainen.rs` | chain counts = active leaves of package-merge; the lengths meet a saturation condition that implies optimality (exchange argument); McMillan's theorem (Mathlib) extends the comparison to all decodable codes | proved |
| C11, C12 | `tree.rs`, `symbols.rs` | closed form of first codes; complete table lifted | proved |
| C13 | `Lz77Store` | cumulative-table invariant | proved |
| C14, C15, C28 | size calculators | induction; equality of the two tree encoders | proved |
| C17 | smoothing | loop invariant | proved |
| C18 | `blocksplitter.rs` | loop invariants, for arbitrary cost functions | proved |
| C19 | `blocksplitter.rs` | documentation violated; the theorem says what the code does instead | finding |
| C20 | `cache.rs` | cache invariant: a filled entry equals the fresh result | proved |
| C21, C22, C23, C26, C33, C34 | encoder state machine over an arbitrary faulty sink | homomorphism from the faulty run to the ideal run; induction over operations | proved |
| C24, C25 | the same | violated; concrete counterexamples, for every float implementation and all options | findings |
| C27 | stored blocks | induction over 65535-byte chunks | proved |
| C29 | `set_chunk` | invariant over histories | proved |
| C30 | `lz77_optimal` loop | invariant | proved |
| C31, C32, C36 | `BitwiseWriter`, `get_match`, `RanState` | induction / bit arithmetic | proved |
| C37 | hash chains, both tables, the switch between them, the cache | exact contents of the chains by induction over the window; completeness of the walk | proved |
| C38 | the whole fixed-mode encoder: shortest path over lengths, cost of the fixed codes, long-run shortcut; a reader's view of any competing block | cost tables are exact natural numbers in f32/f64; triangle inequality for all tried steps; exchange argument for the steps not tried in long runs; any competing block read by the RFC decoder is a parse, whose path costs no less | proved |
| C39 | `getDynamicLengths`, `tryOptimizeHuffmanForRle`, `calculateTreeSize`, `addLz77Block` | sum over items regrouped by symbol, optimality of the code lengths (C10) for both alphabets, the patch of the distance lengths changes only unused symbols, the comparison of the two candidates, bound on the description by the optimality of the code-length code against all-5 lengths | proved |
| C40 | every `debug_assert!`, `verify_len_dist`, `print_block_split_points` (all as guards), `ieeeDebug` | the guards are discharged inside the main invariants (match chains share the hash value, cache entries agree with `sublen`, every used symbol has a code, ...); costs stay non-negative by induction when the logarithm is monotone on the integers that occur; the 32-bit sums are at most 16 bits per byte described | proved |
| C41 | `blocksplit_attempt`, `calculate_block_size_auto_type`, `add_all_blocks` | the estimates depend only on the items (congruence of the histogram and the code lengths), so they equal `predictedBits`, defined by what is written; sums and comparisons of floats are exact below 2^53 | proved |
| C42 | `blocksplit_lz77`, `find_minimum`, `find_largest_splittable_block`, `blocksplit` | loop invariant: the cuts are `CutOneByOne`, every block marked done was examined and given up; `find_minimum` returns a minimum of short ranges and of the samples of long ones; the largest block that is not done bounds all the others | proved |
| C43 | `new_buffered`: `BufWriter` `write`, `flush`, `into_inner`, `drop` | a run of the buffered encoder followed by emptying the buffer is a run of the plain encoder on the joined calls (induction over the calls); then C21-C23 for these calls; an error path leaves the record of the sink unchanged | proved |
| C44 | `BitwiseWriter::add_bit`, block sizes and `optimize_huffman_for_rle` with overflow checks, and everything above them | the bit position is below 8 unless a write has failed; a block of fewer than 2^28 - 1 bytes costs fewer than 2^32 bits with any lengths up to 15; so both builds do the same until then, for sessions, buffered sessions, `compress` and the program; after a failure the checked build panics or still does the same (`Le`: every step of the checked build is undefined or equal); counterexample evaluated for every floating point implementation | proved; the unconditional claim is violated |
| C45 | `src/math.rs`: bit patterns of binary64, `abs`, `log2` | the splitting of the argument into exponent and reduced mantissa is exact on the bit patterns; rounding errors of the polynomial part are bounded step by step by interval estimates over the rationals; the polynomial is compared with the series of the artanh over the reals; monotonicity on integers because neighbours are further apart than two errors | proved |
| C46 | `main`, `WriteStatistics`, files as sinks and readers over an arbitrary operating system | `WriteStatistics` is a homomorphism of sinks, so C04, C05, C21 and C34 apply; an invariant of every call of the sink is an invariant of `compress` (sinks restricted to a subtype); induction over the arguments | proved |
| C47, C48 | the encoders, `compress`, `main`; decoders that return what follows a stream (`Spec/Members`) | the spec decoder reads from left to right: if it accepts bits it accepts them, with the same result and the same end, when more follow (`Local`, `partial_correctness` of the endless readers); with C01-C04, C21 a prefix that decodes is the whole stream; before `finish` the sink holds a common prefix of two streams for different data | proved |
| C49 | `compress` and `compressFrom`, `main` | the plan of `copyLoop` (the pieces and their sizes) is made before any sink is looked at; pieces of equal sizes are determined by the data; for small data there is only one | proved |
| C50 | the encoder state machine | invariant `DInv`: blocks for everything before the last buffer, pending bits; what a write emits does not depend on its own buffer; the pending bits are a prefix of all later output | proved |
| C51 | the encoder state machine | invariant `DInvB` ties the blocks written so far to a function of window, buffer and last-flag that is chosen once for all sessions | proved |
| C52 | `squeeze.rs` with its `f32`/`f64` costs | the dynamic programming is compared with ideal rational costs (`Spec/Cheapest.lean`): each rounding has a relative error bound, which is carried along any competing parse by induction; the early exit of the search is harmless because the computed minimum cost is a lower bound of every computed cost; the counts are followed through the passes of C30 | proved |
| C53 | checksums of `gzip.rs`, `zlib.rs` | the CRC register is a linear injective map of the bits; for two bits, the order of the feedback polynomial is computed in the kernel by repeated squaring of its 32x32 matrix and the factors of `2^32 - 1`; Adler-32 over the field with 65521 elements | proved |
| C54 | sessions and `compress` on any sink, slices | per block type a bound for each chunk (C27, C28, and nine bits per byte for the fixed codes), summed over the chunks; the number of pieces of `compress` from C49; slices by C33 | proved |
| C55 | dynamic mode, writes below 1000 bytes | the store of such a chunk has fewer than 1000 items, so the block chooser always tries the optimal fixed parse (C28); that one is a shortest fixed block (C38); induction over the pieces | proved |
| C56 | the three encoders | the core of the encoder does not know the format; the checksums are those of the RFCs (C02, C03) | proved |
| C57 | the whole encoder on any sink | the options are read by `deflate_part` in dynamic mode only; congruence through all the calls | proved |
| C58 | the encoder, one short write | at the start of a stream the block written is exactly the least of stored, fixed and dynamic; the first two do not depend on the limits, the third is monotone by C30 | proved |
| C59 | the encoder, one short write; every DEFLATE stream | every stream of fixed blocks is a parse of the data (spec decoder); C38's parser is optimal over parses; exact length of the written stream | proved |
| C60 | the encoders, a client that goes on after errors (Spec/Persist.lean) | invariant of every call: window and checksum state are those of the acknowledged buffers; a tape of all accepted bytes | proved |
| C61 | lz77_optimal_fixed on periodic data (Spec/Periodic.lean) | C37/C38: every position of periodic data is one where the search is complete; the parse found is at most as dear as literals for one period and copies of 258 bytes after it | proved |
| C62 | the window across writes, in fixed mode (Spec/Periodic.lean) | as C61, for a chunk after any history | proved |
| C63 | the choice of block types in dynamic mode, for chunks of any length | either the dynamic estimate is below that of the best fixed block for the bytes, which is no longer than the fixed block for the same items (C37's optimality), or below that of the same items itself; estimates are exact (C14) | proved |
| C64 | `ZopfliHash::init` cell by cell, reuse of tables and buffers (`Model/Memory`), the arena of `katajainen.rs` with addresses and the in-place change (`Model/Arena`) | reading after initialisation does not depend on the memory; loops that carry leftovers along compute the same as loops that do not; refinement: addresses represent the chains of the value model, the node changed in place is not on any other chain | proved |
| C65 | all functions from `write`/`finish`/drop down to the byte comparisons again, in a monad that counts steps (`Model/Work`, `Model/WorkEncoder`): a step for each round of each loop over data, chain links, items, split points, lengths; operations on tables of fixed size (code lengths, block sizes, entropies) count `E` steps each, `E` arbitrary | the functions with the clock return what the functions without return, and a bound on the steps, by induction along the code: chain hits limited to 8192, runs extended at most once per byte (amortised), edges at most 258 per position, `find_minimum` ends after a constant number of rounds, splits limited by the option | proved |
| C66 | all functions from the sessions down to the messages again, in a monad with a logger that is any state machine (`Model/Logging`); the points at which `add_lz77_block` reads the writer are operations in the list of what is written | the functions with a logger return what those without return (induction along the code; the subtraction in the report never underflows since the writer only advances); for a logger that collects everything, what the collected messages are | proved |
| C67 | the writer, the encoders and sessions again with sinks that may panic (`Model/Unwind`): a panic ends every function at once and leaves the encoder as it is at that moment, then the encoder is dropped; a panic while unwinding aborts | each function over the sink agrees with the function of the main model over the same sink with errors for panics (both directions, by the partial correctness principles of the two `write_all`); an invariant for sinks that panic at most once; the theorems about failing sinks; two executions | proved |
| C68 | `compress` again with readers and sinks that may panic (`Model/UnwindCompress`), with the flag by which `BufWriter` remembers that it was unwound in a call of the encoder and does not flush when it is dropped; for readers that lend their buffer in `Model/UnwindBuffered` | the run agrees with the run of the main model over the same sink and reader with errors for panics, or the `BufWriter` was broken and the record of the sink is frozen; a panic of a reader is told from an error by comparing the runs for two different errors; the theorems about failing sinks and readers; with a reader that lends its buffer it is a session of C73 with one write for each part | proved |
| C69 | code lengths and block sizes again with numbers of `W` bits (`Model/Words`): an operation that does not fit panics or loses its upper bits, depending on the build | every weight in the package-merge algorithm is at most `(number of symbols + 14) * sum of frequencies`; smoothing adds at most one per symbol to the sum of counts and every partial sum is bounded; sizes are bounded by 15 bits and 13 extra bits per byte; so every result fits and the two computations agree | proved |
| C70 | the provided methods of `Write` and `io::copy` on an encoder (`Model/Handing`); an encoder as a `Sink` (`encoderSink`) | `write` of an encoder returns all of its buffer or an error that is not an interruption, so each loop ends after one round per buffer (equality of runs, on any sink); the states of an inner encoder are those reached by plain calls whose data is the record of the outer sink, so the sink made of it is reliable, recorded or honest if the inner sink is, and C01-C05, C21 apply twice | proved |
| C71 | statistics, splitting, block output and the encoders again with numbers of `W` bits (`Model/WordsPart`, `Model/WordsEncoder`, `Model/WordsBuffered`), on top of C69; the byte counter of the writer wraps | the counts of a run sum to at most the number of bytes and 290, the weighted statistics to at most twice that, so by C69 every step agrees with exact arithmetic, in every build; the encoders of the two models are related by reducing the counter modulo `2^W`, a homomorphism because nothing but log messages reads it; loops over readers and sinks in both directions by the induction principles of the fixpoints | proved |
| C72 | as C55 and C62 | each piece is at most two bits longer than the best fixed block (C28, C55), which is no longer than the copies of C62; the bounds of the pieces are added up, their number is limited by the options | proved |
| C73 | `new_buffered` again with sinks that may panic (`Model/UnwindBuffered`), with the flag of C68 | the run agrees with that of C43 over the same sink with errors for panics, or it agrees with the unbuffered run (C67) of the joined writes; then C43 and C26 | proved |
| C74 | the vectored methods of `BufWriter` and the provided methods of `Write` on it, and `std::io::copy` from a `VecDeque<u8>` (`Model/HandingBuffered`) | `write_vectored` is a run of plain writes of a prefix of the buffers; induction over the loop of `write_all_vectored`; then C43 | proved |
| C75 | `compress` (both ways of copying) and buffered sessions with a clock (`Model/WorkCompress`, `Model/WorkBuffered`), a client that goes on after errors | the costs of the calls (C65) summed over the loops of `std::io::copy` and over the calls, with the data held back and in the buffer as potential (two hand-overs of the buffer carry more than its capacity together); the invariant that no more than the last buffer is held back | proved |
| C76 | the model with another `log2` in the same arithmetic | the two runs in lock step: the states of the parser correspond (`BestState.re`, `SymbolStats.re`, `OptimalState.re`), and the blocks of each part are the same; then by induction over calls and loops; for the finite versions the counts of the statistics stay below 2n+2 for a part of n bytes | proved |
| C77 | the writer, the encoders, sessions and `compress` again over a sink with a `write_all` of its own (`Model/OwnSink`) | each function agrees with that of the main model over an ordinary sink whose loop does what the sink's `write_all` does; for any lawful `write_all` such a sink exists (one that takes all or fails), also under observation; then the theorems about ordinary sinks | proved |
| C78 | `deflate_part` and everything below it that writes, again with the writer passed along (`Model/Direct`), the lazy iterators `Chunks`, `Peekable`, `FlagLastIterator`, `Chain`, `Take`, and the encoders, `compress`, buffered encoders and the program on top (`Model/DirectEncoder`, `Model/DirectBuffered`) | each function follows the list of operations that the main model computes: on every state of the writer it does what performing the list does; lists compose under `?`; the computations in between do not panic, so none is missed after a failure; iterators are described by the list they drain to | proved |
| C79 | the byte slice as a part of a memory, with `split_at_mut` and `copy_from_slice` (`Model/SliceMemory`) | the slice of the main model (bytes written, room left) maps to the memory with the bytes in place, and the map commutes with writing, so sessions commute with it; that written and remaining bytes add up to the capacity is carried by a subtype in the same way | proved |

### Findings

* **C19** `Options::maximum_block_splits` is documented "0 means unlimited"; in the code 0 disables splitting.
* **C24** After `finish()` reported a sink error, the encoder is dropped with the chunk still pending: the drop handler
  encodes the chunk again and sends it to the sink, after the partial first copy.
* **C25** `write()` that returned an error has consumed nothing according to `std::io::Write`, but the retry re-encodes the
  half-written previous chunk: the final stream is corrupt although every later call succeeds.
* **C44** In a build with overflow checks, an error of the sink while a completed byte is being sent becomes a panic when the
  encoder is dropped (`bit << self.bp` with `bp == 8`, src/deflate.rs:1339), even inside `finish`, which should return the error.
* **C67** A panic of the sink makes the drop handler write to the sink again (C24), and in a build with overflow checks, where
  this may panic (C44), a single panic of the sink may abort the process.
* **C68** A reader that panics, like one that fails (C34), leaves a complete and valid stream of a part of the data in the sink.
* **C73** A sink that panics once under a buffered encoder loses what waited in the buffer, and yet receives the end of a stream (`C73_buffer_lost`).
* **C46** A read error half-way through a file leaves behind a valid gzip file of the part read so far (dropping the encoder
  completes the stream), distinguishable from a complete one only by the error message.
* **C49** For more than 991,808 bytes the output of `compress` is not a function of the data and the options alone: `io::copy`
  hands a piece to the encoder when fewer than 8192 bytes of its buffer are free, so the cuts depend on the sizes of the
  reads; and a slice of 1,000,000 bytes or more is compressed in one piece. The stream is correct in every case.
* **C52** the optimum is one among copies from the nearest place only, and up to a relative error of about `n / 2^22` for `n`
  items (costs of positions are accumulated in `f32`); within 776 or more equal bytes the search is skipped in favour of copies
  of 258 bytes.
* **C14/C28/C44** the sizes of fixed and dynamic blocks are `u32` sums: for a single write of 2^28 bytes or more they can
  wrap, so that the choice of block type is wrong (only the size suffers; C01 has no such restriction), and a build with
  overflow checks can panic. `compress` makes such writes only for a
  slice of that size, or a `BufReader` with such a buffer.

## 4. Trusted base

* Lean 4.33.0's kernel. Every theorem depends on no axioms other than `propext`, `Classical.choice`, `Quot.sound`
  (`vcheck` lists them); there are no axioms of our own, no compiled evaluation.
* The reading of the Rust sources in `Model/*` (section 2), including the simplifications stated in the comments.
* The RFC transcriptions and the vocabulary in `Spec/*`.
* Assumptions that appear as hypotheses of theorems: `Log2Ok log2` and, in C40 and C52 only, `Log2Mono log2 bound` (about the
  platform's `log2`; proved of the crate's own in C45), `Fits` (a buffer passed to
  one `write` call has fewer than 2^47 bytes), `Reliable`/`Honest`/`Delivers` (about sinks and readers).

### Fidelity check (not part of the proof)

The model is executable apart from `log2`. With `log2` instantiated by the machine's, its `compress ... gzip` was run on files
of `/repo/test/data` and compared with the reference outputs in `/repo/test/results`: byte-for-byte equal for empty.txt,
30-min.csv, computer.png, heartbleed.png, codetriage.js, master-block-size-zeros.bin, eeyore.png and calgary-books.txt.
This is evidence that the model has the behaviour of the program, bit by bit, including float rounding and tie breaking.

The specification decoders were compared with zlib 1.2.13 (through Python) on 1386 byte strings: raw, zlib and gzip streams
made by zlib at levels 0, 1, 6, 9 with four strategies, with and without sync flushes, and the same with one bit flipped, with
the last byte missing, or with a byte appended. They agreed on every one, in what they accept and what they return.

### Seeded bugs

`seeded/LOG.jsonl` records the edits made to the model in a scratch copy, the claim each one breaks, and the theorems
that then fail. See section 5.

## 5. Seeded bugs that survived, and what was done

Every attempt is a line of `seeded/LOG.jsonl`: a one-line edit of a definition of the model, a rebuild, and the theorems
whose proofs failed. "killed" is the expected outcome. Survivors:

* run-length counter one too large (`extendSame`), worse of the two Huffman codes taken, more expensive of two divisions
  taken: these led to C40, C39 and C41, which kill them.
* `LongestMatchCache.tryGet` returning the distance of the longest match: the encoder never reaches the difference.
* which of several equally long blocks is divided first, and the tolerance of the smoothing heuristic (4 or 5): no property
  speaks about these.
* what a checked session (C44) does to a sink after a call has failed: this led to `C44_panics_or_same`, which speaks about failing calls too.
* controls, edits that do not change the behaviour: `currentLength` at the end of the data, `followPathLoop`, `blockSymbolSize` with a histogram
  computed twice, a cost table that lists another distance with the same symbol (`dsymbols`), `Encoder.new` with another block type (it is not used
  there). Other controls fail to build although their claims stay true, since the proofs unfold the definitions.

{"id": "C01", "title": "DEFLATE round trip", "statement": "For every input, every Options value, every BlockType and every way of cutting the input into write() calls, the bytes a DeflateEncoder has handed to a non-failing sink when finish() returns are a valid RFC 1951 stream that inflates to exactly the concatenation of the written buffers.", "quantifier": "all byte strings, all iteration_count / iterations_without_improvement / maximum_block_splits values, all three block types, all finite sequences of (possibly empty) writes", "why_tests_cant": "The encoder searches over LZ77 parses, splits and Huffman trees; the repo's proptest samples 64 KiB inputs at most and a handful of write patterns, whereas one bad (length, distance) pair in any input corrupts data silently.", "anchors": ["src/deflate.rs: DeflateEncoder, deflate_part, blocksplit_attempt, add_lz77_block", "src/squeeze.rs", "src/lz77.rs"]}
{"id": "C02", "title": "gzip round trip", "statement": "For every input, options, block type and write schedule, the bytes produced by GzipEncoder::finish are one complete RFC 1952 member: fixed 10-byte header, a DEFLATE body that inflates to the written data, the CRC-32 of that data and its length modulo 2^32, with nothing after it.", "quantifier": "all byte strings (including longer than 2^32 bytes), options, block types, write schedules", "why_tests_cant": "The checksum and the length field must be right for every input and every split into writes; the length field wraps at 4 GiB, a size tests do not reach.", "anchors": ["src/gzip.rs: GzipEncoder"]}
{"id": "C03", "title": "zlib round trip", "statement": "For every input, options, block type and write schedule, the bytes produced by ZlibEncoder::finish are a complete RFC 1950 stream: a header whose 16-bit big-endian value is divisible by 31 with CM=8, CINFO=7 and no preset dictionary, a DEFLATE body that inflates to the written data, and the big-endian Adler-32 of that data.", "quantifier": "all byte strings, options, block types, write schedules", "why_tests_cant": "Same search space as the DEFLATE round trip plus a running checksum over an arbitrary write schedule; no test in the repo covers zlib at all.", "anchors": ["src/zlib.rs: ZlibEncoder"]}
{"id": "C04", "title": "compress() is lossless for every reader", "statement": "compress(options, format, reader, sink) with a reader that delivers the data in any sequence of fragments and then EOF, and a non-failing sink, returns Ok and leaves in the sink a stream of the requested format that decompresses to exactly the bytes the reader delivered.", "quantifier": "all readers (fragmentations of the data), slices and readers that lend their buffer, all inputs including those larger than the 1,000,000-byte internal buffer, all formats and options", "why_tests_cant": "The chunk boundaries seen by the encoder depend on the interaction of fragment sizes and the buffer; there are unboundedly many.", "anchors": ["src/lib.rs: compress", "src/deflate.rs: new_buffered"]}
{"id": "C05", "title": "No panic, no hang", "statement": "With a sink that never fails, no sequence of write()/flush() calls followed by finish() or drop panics (index out of range, failed assertion, unwrap on None) or loops forever, whatever the data and options.", "quantifier": "all inputs, options, block types, call sequences", "why_tests_cant": "The code indexes dozens of fixed-size tables with data-dependent values and contains data-dependent while loops whose termination rests on cost comparisons; a test run only shows the indices it hit.", "anchors": ["src/deflate.rs", "src/lz77.rs", "src/squeeze.rs", "src/blocksplitter.rs", "src/katajainen.rs", "src/tree.rs"]}
{"id": "C06", "title": "Streams are acceptable to strict decoders", "statement": "Every dynamic block written declares at most 286 literal/length and 30 distance codes, gives the end-of-block symbol a code, and all three of its Huffman codes (code lengths, literal/length, distance) are complete prefix codes (Kraft sum exactly one) with at least two symbols, lengths at most 7 for the code-length code and at most 15 for the others.", "quantifier": "all inputs, options and write schedules that lead to dynamic blocks", "why_tests_cant": "zlib rejects incomplete or over-subscribed sets; whether one is ever produced depends on the symbol histogram of an arbitrary block.", "anchors": ["src/deflate.rs: get_dynamic_lengths, patch_distance_codes_for_buggy_decoders, encode_tree", "src/katajainen.rs"]}
{"id": "C07", "title": "Exactly one final block, at the very end", "statement": "In a finished stream the final-block flag is set on exactly one block, the last one; the decoder consumes the stream to within the padding of its last byte, the padding bits are zero and no byte follows.", "quantifier": "all inputs, options, block types, write schedules (including no writes and empty writes)", "why_tests_cant": "Depends on how the last chunk is split into blocks and stored sub-blocks; a stray or missing flag appears only for particular sizes.", "anchors": ["src/deflate.rs: DeflateEncoder::__finish, add_all_blocks, add_non_compressed_block"]}
{"id": "C08", "title": "Back-references are in range and true", "statement": "Every (length, distance) pair written has 3 <= length <= 258 and 1 <= distance <= 32767, never refers to bytes before the start of the data, and copies exactly the bytes of the input at that position.", "quantifier": "all inputs, options, write schedules, all positions", "why_tests_cant": "The match finder follows hash chains through a circular buffer with stale entries and a run-length shortcut; a wrong entry shows up only on inputs that wrap the 32 KiB window in a particular way.", "anchors": ["src/lz77.rs: find_longest_match_loop, follow_path", "src/hash.rs"]}
{"id": "C09", "title": "Length-limited code lengths form a complete code", "statement": "For every histogram of at most 2^max_bits used symbols, the computed code lengths are zero exactly for unused symbols, are at most max_bits, and satisfy the Kraft equality whenever at least two symbols are used (a single used symbol gets length 1, no used symbol gives all zeros).", "quantifier": "all frequency vectors of length <= 288 with any number of used symbols, limits 2..15", "why_tests_cant": "The histogram space is infinite; the existing tests check seven vectors.", "anchors": ["src/katajainen.rs: length_limited_code_lengths"]}
{"id": "C10", "title": "Length-limited code lengths are optimal", "statement": "The computed code lengths minimise sum(frequency * length) over all prefix-code length assignments with lengths <= max_bits for the used symbols.", "quantifier": "all frequency vectors with at least two used symbols, all competing length assignments", "why_tests_cant": "Optimality quantifies over all alternative codes; a suboptimal result still decompresses, so round-trip tests never notice.", "anchors": ["src/katajainen.rs: boundary_pm, boundary_pm_final, extract_bit_lengths"]}
{"id": "C11", "title": "Canonical Huffman codes", "statement": "The codewords assigned to a set of code lengths satisfying Kraft's inequality are the canonical ones of RFC 1951 section 3.2.2: each fits in its length, no codeword is a prefix of another, shorter codes precede longer ones and equal lengths are in symbol order; decoding a codeword yields its symbol whatever follows it.", "quantifier": "all length vectors satisfying Kraft's inequality with lengths <= 15, all symbols, all trailing bits", "why_tests_cant": "Universal over length vectors.", "anchors": ["src/tree.rs: lengths_to_symbols"]}
{"id": "C12", "title": "Length and distance symbols invert", "statement": "For every match length 3..258 and every distance 1..32768 the (symbol, extra-bit count, extra-bit value) triple written is the one RFC 1951 section 3.2.5 decodes back to that length or distance, and the extra-bit value fits in the extra-bit count.", "quantifier": "all lengths 3..258, all distances 1..32768", "why_tests_cant": "No unit test covers the tables; the domain is finite but must be covered completely and uniformly.", "anchors": ["src/symbols.rs"]}
{"id": "C13", "title": "Symbol statistics are exact", "statement": "For every range of an LZ77 symbol sequence the histogram used to build the block's Huffman codes equals the true number of occurrences of each literal/length and distance symbol in that range, however the sequence was built.", "quantifier": "all symbol sequences, all ranges lstart <= lend (short ranges counted directly, long ones by subtracting cumulative tables)", "why_tests_cant": "The cumulative tables are indexed with two different strides; an off-by-one shows only for ranges straddling particular boundaries and silently gives a symbol no code.", "anchors": ["src/lz77.rs: append_store_item, get_histogram, get_histogram_at"]}
{"id": "C14", "title": "Block size estimates are exact", "statement": "The size used to choose between block types is exactly the number of bits the fixed or dynamic block takes when written; for stored blocks the bits written are between 5 fewer and 2 more than the estimate, and exactly the estimate when the writer is at a byte boundary.", "quantifier": "all symbol sequences and ranges whose true size is below 2^32 bits", "why_tests_cant": "An error only costs bytes, so no decompression test can reveal it.", "anchors": ["src/deflate.rs: calculate_block_size, calculate_block_symbol_size, calculate_tree_size"]}
{"id": "C15", "title": "Tree description is the cheapest of the eight and its size is exact", "statement": "The dynamic-tree description written is the smallest over all eight combinations of using repeat codes 16, 17 and 18, and the size computed without output equals the number of bits written.", "quantifier": "all pairs of code-length vectors with lengths <= 15", "why_tests_cant": "Two hand-duplicated functions must agree on every input.", "anchors": ["src/deflate.rs: encode_tree, encode_tree_no_output, add_dynamic_tree"]}
{"id": "C16", "title": "Run-length coded trees decode to the same lengths", "statement": "Whatever combination of repeat codes is chosen, the tree description written decodes, by RFC 1951 section 3.2.7, to exactly the literal/length and distance code lengths used to code the block.", "quantifier": "all literal/length and distance length vectors with lengths <= 15 (and zero for the unused symbols 286, 287, 30, 31), all eight repeat-code choices", "why_tests_cant": "Run boundaries interact with the 138/10/6 limits and with runs crossing from one alphabet to the other.", "anchors": ["src/deflate.rs: encode_tree"]}
{"id": "C17", "title": "Histogram smoothing is safe", "statement": "Smoothing the histogram to help run-length coding never turns a used symbol into an unused one and never uses a symbol beyond the last one used.", "quantifier": "all histograms", "why_tests_cant": "A used symbol dropped to zero would corrupt data only for rare histograms.", "anchors": ["src/deflate.rs: optimize_huffman_for_rle, set_counts_to_count"]}
{"id": "C18", "title": "Block splitting partitions the data and respects the limit", "statement": "In dynamic mode each write becomes a partition of its bytes into consecutive pieces without loss or overlap, none empty unless the write is; for maximum_block_splits = n >= 1 there are at most n pieces, and each piece is a single compressed block or stored; the pieces of all writes make up the whole stream. In fixed mode each write is one fixed block.", "quantifier": "all write sequences, formats, limits and other options", "why_tests_cant": "Depends on cost comparisons over arbitrary data.", "anchors": ["src/blocksplitter.rs: blocksplit, blocksplit_lz77, find_minimum, find_largest_splittable_block"]}
{"id": "C19", "title": "maximum_block_splits = 0 means unlimited (documented) - violated", "statement": "Documentation: 0 means an unlimited number of blocks. In the code a limit of 0 disables block splitting altogether: every chunk becomes a single block.", "quantifier": "all inputs with maximum_block_splits = 0", "why_tests_cant": "A test cannot distinguish 'no split was profitable' from 'splitting is disabled' in general.", "anchors": ["src/lib.rs: Options::maximum_block_splits", "src/blocksplitter.rs: blocksplit_lz77 (while maxblocks != 0 && ...)"]}
{"id": "C20", "title": "The match cache is transparent", "statement": "Answering match queries from the longest-match cache, in any order and any number, gives the same length, the same distance and the same distance for every shorter length >= 3 as computing them afresh; every parse (greedy, fixed-tree, iterated) is the same with the cache disabled, so the emitted bytes are the same.", "quantifier": "all inputs, positions and query histories", "why_tests_cant": "Stale or truncated cache entries matter only for particular sequences of queries.", "anchors": ["src/cache.rs"]}
{"id": "C21", "title": "Sink errors are reported and only a prefix is written before them", "statement": "If the sink fails, the write() or finish() call during which it fails returns that error; the bytes the sink accepted up to that moment are a prefix of the stream a non-failing sink would have received.", "quantifier": "all fault schedules of the sink (any call may fail or accept a partial buffer), all inputs, options and write schedules", "why_tests_cant": "Unbounded number of crash points.", "anchors": ["src/deflate.rs: BitwiseWriter, DeflateEncoder::write, __finish", "src/io.rs"]}
{"id": "C22", "title": "Short writes and Interrupted are transparent", "statement": "A sink that accepts any non-empty part of each buffer, and interrupts with ErrorKind::Interrupted finitely often, receives exactly the same byte stream as one that accepts everything; a sink that answers Ok(0) yields WriteZero.", "quantifier": "all acceptance and interruption schedules", "why_tests_cant": "Schedules are unbounded.", "anchors": ["src/io.rs: Write::write_all"]}
{"id": "C23", "title": "Dropping finishes", "statement": "Dropping an encoder that was not finished leaves in a non-failing sink exactly the bytes finish() would have produced; dropping after a successful finish() writes nothing more.", "quantifier": "all encoders (deflate, gzip, zlib), all states reachable by writes", "why_tests_cant": "Universal over histories.", "anchors": ["src/deflate.rs: Drop for DeflateEncoder", "src/gzip.rs", "src/zlib.rs"]}
{"id": "C24", "title": "After a failed finish() nothing more reaches the sink - violated", "statement": "A caller told by finish() that the sink failed expects no further output. In the code the failed encoder is dropped, the drop handler runs finishing again, and the chunk is encoded a second time into the sink after the partial first copy.", "quantifier": "existence of an input, a fault schedule and a sink that recovers", "why_tests_cant": "Needs a fault at one exact write followed by recovery.", "anchors": ["src/deflate.rs: finish, __finish, Drop"]}
{"id": "C25", "title": "Retrying a failed write() is safe - violated", "statement": "Write::write promises that on error no byte of the buffer was consumed, so callers retry. In the code a failed write() leaves the half-written previous chunk pending; the retry encodes it again from the start, so the sink's stream no longer decodes to the data although the retry and finish() succeed.", "quantifier": "existence of a write schedule and a transient sink fault", "why_tests_cant": "Needs a fault at one exact write followed by recovery.", "anchors": ["src/deflate.rs: DeflateEncoder::write"]}
{"id": "C26", "title": "flush() is harmless", "statement": "flush() calls, at any point, never change the bytes of the stream and never fail on a sink whose flush succeeds; they forward exactly one flush to the sink and do not force out the pending chunk.", "quantifier": "all interleavings of write and flush", "why_tests_cant": "Unbounded interleavings.", "anchors": ["src/deflate.rs: flush", "src/gzip.rs", "src/zlib.rs"]}
{"id": "C27", "title": "Stored mode has exact, bounded expansion", "statement": "With BlockType::Uncompressed every chunk of n bytes becomes ceil(n/65535) stored blocks of 5 + length bytes (one empty block for an empty last chunk), each with LEN <= 65535 and NLEN its complement, independently of the other options.", "quantifier": "all inputs, options and write schedules", "why_tests_cant": "Sizes around multiples of 65535 are too many to enumerate with arbitrary schedules.", "anchors": ["src/deflate.rs: add_non_compressed_block", "src/iter.rs"]}
{"id": "C28", "title": "Dynamic mode never does worse than storing", "statement": "For each block, the automatic mode picks a representation at most 2 bits larger than the dynamic candidate, at most 2 bits larger than the larger of the two fixed candidates (the fixed block for the same items and the best one found for the same bytes; the latter alone when there are fewer than 1000 items), and at most 5 bits larger than storing; so no piece of a write takes more than 2 bits more than its bytes in stored blocks at a byte boundary (5 bytes of overhead per started 65535 bytes), and the whole stream is bounded by the data plus the block headers.", "quantifier": "all write sequences, formats and options, writes below 2^28 bytes (larger ones can wrap the 32-bit size sums)", "why_tests_cant": "Optimality over all inputs; violations only cost size.", "anchors": ["src/deflate.rs: add_lz77_block_auto_type, calculate_block_size_auto_type"]}
{"id": "C29", "title": "The sliding window holds exactly the last bytes", "statement": "At any time the encoder retains at most 32768 bytes of history before the pending chunk, these are exactly the bytes most recently written before it, and memory retained never exceeds 32768 bytes plus the pending chunk.", "quantifier": "all write schedules", "why_tests_cant": "Invariant over unbounded histories.", "anchors": ["src/deflate.rs: set_chunk"]}
{"id": "C30", "title": "Iteration limits are honoured and results never get worse", "statement": "Each optimisation runs at least one and at most iteration_count passes, stops as soon as iterations_without_improvement consecutive passes have brought no gain, and keeps the best result (the earliest of those of smallest size); the passes themselves do not depend on the limits, so raising a limit never increases the computed size of the result.", "quantifier": "all inputs, all option values, all cost models", "why_tests_cant": "Quantifies over all pairs of option values and inputs.", "anchors": ["src/squeeze.rs: lz77_optimal"]}
{"id": "C31", "title": "Bit packing", "statement": "Bits are delivered to the sink least-significant-bit first in the order written, Huffman codes most-significant bit first, the output is the packing of the bit sequence into bytes with zero padding at alignment points, and the number of bytes reported as written is exact.", "quantifier": "all sequences of writer operations", "why_tests_cant": "All sequences of operations at all bit offsets.", "anchors": ["src/deflate.rs: BitwiseWriter"]}
{"id": "C32", "title": "Wide match comparison equals byte comparison", "statement": "Comparing 16 bytes at a time yields exactly the length of the longest common prefix of the two slices.", "quantifier": "all pairs of byte slices", "why_tests_cant": "All lengths, alignments and first-difference positions.", "anchors": ["src/lz77.rs: get_match"]}
{"id": "C33", "title": "In-memory sinks of the no_std build", "statement": "Writing to a fixed byte slice stores a prefix of the stream that fits, advances past it, and reports WriteZero exactly when the stream does not fit; writing to a Vec never fails and appends.", "quantifier": "all streams, all buffer sizes", "why_tests_cant": "All buffer sizes against all output sizes.", "anchors": ["src/io.rs"]}
{"id": "C34", "title": "A reader error is reported and the sink holds a valid stream of what was read", "statement": "If the reader fails after delivering some data, compress() returns that error and, because the encoder is finished on drop, the sink holds a complete stream of the requested format for exactly the bytes delivered before the failure.", "quantifier": "all readers failing at any point", "why_tests_cant": "Unbounded failure points.", "anchors": ["src/lib.rs: compress"]}
{"id": "C35", "title": "Empty input and empty writes", "statement": "Finishing without writing, or after only empty writes, gives a valid stream of zero bytes; inserting empty writes anywhere in a schedule does not change the decompressed data.", "quantifier": "all positions and numbers of empty writes", "why_tests_cant": "Unbounded schedules.", "anchors": ["src/deflate.rs: add_lz77_block_auto_type, add_non_compressed_block"]}
{"id": "C36", "title": "Arithmetic of the randomiser does not overflow", "statement": "The pseudo-random generator used to perturb statistics never overflows its 32-bit products and sums (which would panic in checked builds) and never reaches the absorbing state zero, however many numbers are drawn; it is a function of its state only, so compression is deterministic.", "quantifier": "all reachable generator states", "why_tests_cant": "2^64 states.", "anchors": ["src/squeeze.rs: RanState"]}
{"id": "C37", "title": "The longest match is found, at the nearest distance", "statement": "At every position the match finder reports the longest repetition of the following bytes that starts at most 32767 bytes earlier (capped by the limit asked for), at the nearest distance at which that length occurs, and for every shorter length from 3 the nearest distance for it; provided the search has to go past at most 8192 earlier positions that share a hash with the position (those behind the first repetition of 258 bytes, or of all the bytes that are left, do not count, nor those that share only the first hash behind one that shares both). If a run of exactly 257 or 258 equal bytes starts at the position the reported length may be one less.", "quantifier": "all data, all positions, all limits 3..258, all sequences of queries with or without the cache, with at most 8192 positions in the window to go past", "why_tests_cant": "the search follows hash chains through a circular window and switches between two tables half way; a missed candidate only makes output slightly larger, which no test notices", "anchors": ["src/lz77.rs: find_longest_match, find_longest_match_loop", "src/hash.rs: ZopfliHash::update, HashThing::update", "src/cache.rs"]}
{"id": "C38", "title": "In fixed mode each chunk becomes the shortest fixed-code block", "statement": "With BlockType::Fixed every write (chunk) becomes one block with the fixed codes, and no block with the fixed codes that decodes to the same bytes after the same history, using any mixture of literals and copies from within 32767 bytes, takes fewer bits; provided the chunk is shorter than 2^24/9 bytes and the match finder does not have to give up on long hash chains (C37).", "quantifier": "all options, all sequences of writes (short or long, with runs of any length), all formats, sinks and endings; all competing fixed-code blocks", "why_tests_cant": "a parse that is not optimal still decompresses; optimality is a statement about all competing parses of all inputs, and the parser skips steps in long runs", "anchors": ["src/squeeze.rs: lz77_optimal_fixed, lz77_optimal_run, get_best_lengths, get_cost_fixed, trace, follow_path", "src/deflate.rs: deflate_part, add_lz77_block"]}
{"id": "C39", "title": "A dynamic block is never larger than with the best codes for its symbols", "statement": "For every sequence of literals and matches made into a dynamic block, the block written is no larger than the block with the exact optimal length-limited codes of its symbols and their smallest description, and therefore at most 1654 bits larger than its symbols take with any pair of codes that can express them. Smoothing the histogram to shorten the description is only used when it does not make the block larger.", "quantifier": "all item sequences and ranges (below 2^32/48 items), all competing pairs of code length tables with lengths up to 15 that satisfy Kraft's inequality and cover the symbols", "why_tests_cant": "a worse choice still decompresses; the bound is over all competing codes of all histograms", "anchors": ["src/deflate.rs: get_dynamic_lengths, try_optimize_huffman_for_rle, optimize_huffman_for_rle, calculate_tree_size, add_lz77_block", "src/katajainen.rs: length_limited_code_lengths"]}
{"id": "C40", "title": "The authors' own assertions hold", "statement": "In a build with debug assertions, no assertion in the code ever fails: for every session and every call of compress(), with any data, options, block type and schedule of calls, and a sink that does not fail, the encoder returns, reports success and writes a stream that decodes to the data, just like a release build. (Assertions on costs need a logarithm that does not decrease.) The 32-bit sums used to choose block types do not overflow for less than 256 MiB per write.", "quantifier": "all write sequences, options, block types, formats, endings, sinks that do not fail, readers; all floating point logarithms that are bounded and do not decrease; all item sequences and code lengths for the sums", "why_tests_cant": "tests run the assertions only on their own inputs; the assertions relate hash chains, cache contents and parser tables deep inside, over all data", "anchors": ["src/lz77.rs: debug_assert!, verify_len_dist", "src/cache.rs: debug_assert!", "src/squeeze.rs: debug_assert!", "src/deflate.rs: debug_assert!, calculate_block_symbol_size", "src/blocksplitter.rs: debug_assert!, print_block_split_points"]}
{"id": "C41", "title": "The cheaper of two divisions into blocks is written", "statement": "For a chunk of fewer than 2^28 bytes in dynamic mode, the encoder has two candidate divisions into blocks when its first one has three or more parts: the parts themselves, and a new division of all their items. It writes the one whose total predicted size is smaller (the parts on a tie), where the predicted size of a block is exactly the number of bits of the smallest of its stored, dynamic and (for sequences of at most 1000 items) fixed representations. Each block written takes at most two bits more than the smaller of its stored and dynamic representations.", "quantifier": "all data, chunk boundaries, options, bits already written", "why_tests_cant": "a wrong choice still decompresses; sizes can only be compared against the alternative the encoder did not write", "anchors": ["src/deflate.rs: blocksplit_attempt, calculate_block_size_auto_type, add_all_blocks, add_lz77_block_auto_type"]}
{"id": "C42", "title": "Blocks are cut only where it pays, and wherever it pays", "statement": "Block boundaries come about one at a time: each is the cheapest cut of a block of at least ten items (the first of the cheapest, over all cuts if the block has at most 1024 items, and at least as cheap as nine evenly spaced cuts if it is longer), is not after the block's first item, and the two halves are together predicted to be no larger than the block. Unless the permitted number of blocks is reached, cutting goes on until every block has fewer than ten items or its cheapest cut does not pay. (Once there is a cut, the last block is judged without its last item.)", "quantifier": "all item sequences describing fewer than 2^28 bytes, all limits on the number of blocks", "why_tests_cant": "a missed or a useless cut changes no decoded byte; minimality is over all cuts of all blocks", "anchors": ["src/blocksplitter.rs: blocksplit_lz77, blocksplit, find_minimum, find_largest_splittable_block, estimate_cost"]}
{"id": "C43", "title": "Buffered encoders only join writes", "statement": "An encoder made by new_buffered writes exactly the stream that the plain encoder writes when small writes in a row are joined up to 1,000,000 bytes (a flush empties the buffer first). With a sink that does not fail, a session ended by into_inner and finish, or by dropping it, reports success and the sink receives one complete stream for the written data; up to 1,000,000 bytes without flush, the stream does not depend on how the data was cut into writes. With any other sink, success means the whole stream was accepted, and an error is the sink's first failure with a prefix of the stream accepted by then. No session panics or hangs.", "quantifier": "all formats, options, block types, sequences of write and flush calls, endings, sinks", "why_tests_cant": "the boundary cases of the buffer (exactly full, larger than the buffer, empty writes) combine with every schedule and failure of the sink", "anchors": ["src/deflate.rs: DeflateEncoder::new_buffered", "src/gzip.rs: GzipEncoder::new_buffered", "src/zlib.rs: ZlibEncoder::new_buffered", "src/util.rs: ZOPFLI_MASTER_BLOCK_SIZE"]}
{"id": "C44", "title": "Overflow checks change nothing, unless the sink fails", "statement": "A build with overflow checks (cargo build without --release) does exactly what a release build does as long as every call reports success: it does not panic and writes the same stream. This holds for the encoders, the buffered encoders, compress and the command-line program; for compress into a sink that does not fail it holds whatever the reader does. With any sink, failing or not, such a build panics or does exactly the same. In dynamic mode single writes are below 2^28 - 1 bytes, because block sizes are 32-bit sums; compress makes larger ones only from slices (or readers with buffers) of that size. (It is not true that it always reports sink errors: if the sink fails while the encoder is sending a completed byte, finish panics while dropping the encoder instead of returning the error.)", "quantifier": "all formats, options, block types, sequences of calls, endings, readers, sinks, files and operating systems", "why_tests_cant": "tests with overflow checks run only their own inputs, and none of them has a failing sink", "anchors": ["src/deflate.rs: BitwiseWriter::add_bit, finish_partial_bits, DeflateEncoder::__finish, Drop for DeflateEncoder", "src/deflate.rs: calculate_block_symbol_size_small, calculate_block_symbol_size_given_counts, optimize_huffman_for_rle"]}
{"id": "C45", "title": "The logarithm of no_std builds", "statement": "Without the standard library the crate's own base-2 logarithm maps every positive finite f64, subnormal ones included, to a finite number within 2^-49 + 2^-53*|log2 x| of the real logarithm; it is exact for powers of two, does not decrease on the integers up to 2^45, gives -infinity for zero, infinity for infinity and NaN for negative numbers and NaN; the crate's own abs is the absolute value. So a no_std build neither panics nor hangs and writes a stream that decodes to the data, with nothing assumed about the platform's mathematics.", "quantifier": "all f64 values; all formats, options, block types, calls, endings and reliable sinks for the consequence", "why_tests_cant": "there are 2^64 arguments, and the error bound is a statement about real numbers that no comparison with another floating point routine settles", "anchors": ["src/math.rs: F64MathExt::abs, F64MathExt::log2"]}
{"id": "C46", "title": "The command-line program", "statement": "If the zopfli program ends without an error message, every file named on the command line, in turn, has been given a companion with the added extension .gz that gunzips to the contents of the file; if no named file is the companion of another, no other file has changed. If it ends with an error message, that is about the first file with a problem: the files before it have been compressed, and nothing else has changed except perhaps the companion of that file. A file that can be read only up to some offset leaves a valid gzip file of the readable part, with an error message. Existing files on a disk without problems are always compressed, the counter shows the size of the compressed file, and the program never hangs or panics otherwise.", "quantifier": "all command lines, disks, and behaviours of the operating system (short and interrupted transfers, failures at any point)", "why_tests_cant": "the failures of the operating system and their timing cannot be enumerated", "anchors": ["src/main.rs: main, WriteStatistics", "src/lib.rs: compress"]}
{"id": "C47", "title": "A stream cut short is never mistaken for a complete one", "statement": "No proper prefix of a stream that an encoder or compress() writes is accepted by the decoder of its format, not even by one that ignores what follows the end of a stream. So whatever the sink does and whenever it fails, what it had accepted by its first failure decodes to all of the data or not at all; nothing the sink has accepted before finish() or drop decodes; and if the disk dies at any moment while the command-line program runs, the companion it was writing is rejected by gunzip and the earlier ones are complete.", "quantifier": "all formats, options, block types, data, call sequences, sinks, failure points and moments at which the disk dies", "why_tests_cant": "every crash point of every stream would have to be tried; a prefix that happens to decode would go unnoticed", "anchors": ["src/deflate.rs: DeflateEncoder", "src/gzip.rs: GzipEncoder", "src/zlib.rs: ZlibEncoder", "src/lib.rs: compress", "src/main.rs: main"]}
{"id": "C48", "title": "Streams are self-delimiting and can be concatenated", "statement": "A decoder given a stream followed by any bytes returns the data and exactly those bytes, in all three formats. Sessions one after the other on the same sink therefore give streams that are separated again without any index; in particular a series of gzip sessions gives one multi-member gzip file that gunzips to the concatenation of all the data.", "quantifier": "all formats, options, block types, data, call sequences, reliable sinks, numbers of sessions, and bytes after the end", "why_tests_cant": "any byte may follow; that none can be taken for a part of the stream depends on the exact end of the last block in its last byte", "anchors": ["src/deflate.rs: DeflateEncoder::finish, BitwiseWriter::finish_partial_bits", "src/gzip.rs: GzipEncoder::finish", "src/zlib.rs: ZlibEncoder::finish"]}
{"id": "C49", "title": "compress() is reproducible", "statement": "The bytes compress() writes are what an encoder writes that is given the data in certain pieces, all but the last of which end within the last 8192 bytes of a buffer of 1,000,000 bytes. Data of at most 991,808 bytes therefore has one compressed form per format and options: the same for every reader, however it fragments the data or interrupts, for slices and readers that lend their buffer, for every sink that does not fail, and for an encoder given the data in one write; the command-line program writes it whenever it reports no error. Data of any size has one compressed form among all readers that fill the buffers they are given, as files do.", "quantifier": "all formats, options, data, readers (fragmentations, interruptions, final errors), sources that lend buffers, sinks and operating systems", "why_tests_cant": "all fragmentations of the data by readers would have to be tried; a test compares a few", "anchors": ["src/lib.rs: compress", "src/util.rs: ZOPFLI_MASTER_BLOCK_SIZE", "src/deflate.rs: DeflateEncoder::write", "src/main.rs: main"]}
{"id": "C50", "title": "Progress: an encoder holds back one buffer and less than a byte", "statement": "After any sequence of successful calls on an encoder, everything written before the last buffer has been compressed, and its compressed form is in the sink except for fewer than eight bits, which come next: what the sink holds after the header, with these bits, reads as whole blocks, none marked as the last, that expand to exactly that data. What the sink holds does not depend on the last buffer, and the encoder holds no more of the input than the last buffer and the 32768 bytes before it.", "quantifier": "all formats, options, block types, sequences of write and flush calls, continuations of them, and reliable sinks", "why_tests_cant": "a statement about every point of every session and about all its continuations", "anchors": ["src/deflate.rs: DeflateEncoder::write, set_chunk, compress_chunk, BitwiseWriter", "src/gzip.rs: GzipEncoder", "src/zlib.rs: ZlibEncoder"]}
{"id": "C51", "title": "Buffers are compressed independently but for a window", "statement": "For given options, the blocks the encoder makes of a written buffer depend on that buffer, on the last 32768 bytes written before it and on whether it is the last one, and on nothing else: not on the format, the sink, earlier data, flush calls or how the encoder is ended. The three formats contain the same DEFLATE stream between headers of 10, 2 and 0 bytes and trailers of 8, 4 and 0 bytes. Two sessions that have written different data ending with the same 32768 bytes and then write the same buffers continue with the same blocks.", "quantifier": "all options, block types, sequences of writes and flushes, endings, formats, reliable sinks, and pairs of histories", "why_tests_cant": "independence from all earlier histories cannot be tested: there are infinitely many of them, and state may leak (hash chains, caches, statistics, random generator)", "anchors": ["src/deflate.rs: DeflateEncoder::write, set_chunk, compress_chunk, deflate_part", "src/squeeze.rs: lz77_optimal", "src/hash.rs: ZopfliHash::reset", "src/gzip.rs", "src/zlib.rs"]}
{"id": "C52", "title": "Each iteration finds a cheapest parse", "statement": "Every iteration of the optimizer that `iteration_count` counts describes the data by literals and copies such that no other description is cheaper (up to the rounding of 24-bit additions), where a symbol costs log2(total/count) bits and copies have their extra bits in addition, and copies are from the nearest place where the bytes are; the counts are those of the result of the previous iteration (the greedy result for the first), half the previous ones being added once an iteration has stalled, or those of the best one shuffled right after a stall. The best of the iterations is what is encoded. This holds wherever the match finder does not have to give up (few candidates, no run of 776 equal bytes).", "quantifier": "all data, ranges, iteration limits, iterations, all competing descriptions, and every platform logarithm that does not decrease", "why_tests_cant": "the number of competing descriptions is exponential, and rounding errors accumulate differently for each input", "anchors": ["src/squeeze.rs: get_best_lengths, trace, lz77_optimal_run, lz77_optimal, get_cost_stat, SymbolStats, get_cost_model_min_cost", "src/lz77.rs: find_longest_match"]}
{"id": "C53", "title": "Damage is detected", "statement": "If a stored stream is damaged before its trailer and a decoder still accepts it, the data it returns differ from the original in none of these ways: gzip - in length (except by a multiple of 2^32), only within 32 consecutive bits, in exactly two bits that are fewer than 2^32-1 bits apart; zlib - in one byte, or in one or two bytes that are fewer than 65521 bytes apart. If only the trailer is damaged, in whatever way, the stream is rejected. In stored mode, where the bits of the data are in the stream as they are, every such damage to the data makes the decoder reject the stream.", "quantifier": "all data, options, block types, sequences of calls, endings, reliable sinks, and all damaged streams", "why_tests_cant": "the pairs of original and damaged streams are unbounded; a checksum that is wrong in a corner (a skipped byte, a wrong polynomial) passes round-trip tests against a decoder with the same mistake", "anchors": ["src/gzip.rs: GzipEncoder::write, __finish", "src/zlib.rs: ZlibEncoder::write, __finish"]}
{"id": "C54", "title": "A buffer of known size always suffices", "statement": "The number of bytes a session writes never exceeds a bound computed from the block type, maximum_block_splits, the format and the lengths of the writes alone (in dynamic mode for writes below 2^28 bytes); likewise what compress writes, from the length of the data, however the reader fragments it (for a megabyte with default options: at most 251 bytes more). So a session on a byte slice of that length, and compress into one, never fail for lack of room, and leave a stream there that decodes to the data.", "quantifier": "all options, block types, formats, data, sequences of calls, readers, reliable sinks and slice lengths of at least the bound", "why_tests_cant": "the worst case must be known over all inputs and all fragmentations; a test only shows the sizes of the inputs tried", "anchors": ["src/deflate.rs: DeflateEncoder, add_lz77_block_auto_type, add_non_compressed_block", "src/lib.rs: compress", "src/io.rs: Write for &mut [u8]"]}
{"id": "C55", "title": "Short writes: default mode is within two bits of the best fixed block", "statement": "In dynamic mode (the default), for every write shorter than 1000 bytes, each of the pieces it is divided into takes at most two bits more than any block with the fixed codes that stands for the same bytes after the same history, whatever mixture of literals and copies from within 32767 bytes that block uses; unless the match finder has to give up within the piece (more than 8192 earlier positions to go past, or a run of exactly 257 or 258 equal bytes).", "quantifier": "all options, formats, sequences of calls, reliable sinks, and all alternative fixed blocks", "why_tests_cant": "the comparison is with every possible parse of the data, of which there are exponentially many", "anchors": ["src/deflate.rs: add_lz77_block_auto_type, blocksplit_attempt", "src/squeeze.rs: lz77_optimal_fixed, lz77_optimal_run, get_best_lengths", "src/blocksplitter.rs: blocksplit_lz77"]}
{"id": "C56", "title": "The three formats differ in their framing only", "statement": "For given options, block type and written buffers there is one DEFLATE stream, which inflates to the data, such that every session writes exactly: that stream (raw DEFLATE); the ten header bytes 1F 8B 08 00 00000000 02 03, that stream, the CRC-32 and the length modulo 2^32, low bytes first (gzip); the bytes 78 DA, that stream and the Adler-32, high byte first (zlib). So gzip costs 18 bytes more than raw DEFLATE and zlib 6.", "quantifier": "all options, block types, written buffers, formats, reliable sinks, interleaved flushes and both endings", "why_tests_cant": "the checksums and the body must agree for every input; a test compares the formats on a few inputs", "anchors": ["src/gzip.rs: GzipEncoder", "src/zlib.rs: ZlibEncoder", "src/deflate.rs: DeflateEncoder", "src/lib.rs: compress"]}
{"id": "C57", "title": "Options matter in dynamic mode only", "statement": "With BlockType::Uncompressed or BlockType::Fixed, sessions that differ only in their Options do exactly the same: the same results, the same calls on the sink, the same bytes, also when the sink fails or a call panics, with and without overflow checks. The same holds of encoders made by new_buffered.", "quantifier": "all pairs of Options, formats, sequences of calls, endings and sinks of any behaviour", "why_tests_cant": "a test compares a few option values on a few inputs", "anchors": ["src/deflate.rs: deflate_part, DeflateEncoder::compress_chunk"]}
{"id": "C58", "title": "For a short write, higher limits never give a longer stream", "statement": "In dynamic mode with maximum_block_splits 0 or 1, when fewer than 1000 bytes are written in one call (or given to compress), the stream for options with a larger iteration_count and a larger iterations_without_improvement is not longer than the stream for the smaller limits.", "quantifier": "all buffers of fewer than 1000 bytes, all pairs of limits, formats, reliable sinks, flushes and endings; all readers for compress", "why_tests_cant": "an inequality between two runs, for every buffer and every pair of limits; the iterations are randomised and not monotone in themselves", "anchors": ["src/squeeze.rs: lz77_optimal", "src/deflate.rs: add_lz77_block_auto_type, blocksplit_attempt", "src/lib.rs: Options, compress"]}
{"id": "C59", "title": "Small data: no stream with the fixed codes is shorter", "statement": "In fixed mode, when at most 8192 bytes are written in one call and no run of exactly 257 or 258 equal bytes is among them, no DEFLATE stream for the same bytes that uses fixed-code blocks only (any number of blocks, any choice of literals and copies) has fewer bytes than the one written. In dynamic mode with maximum_block_splits 0 or 1 and fewer than 1000 bytes, the stream written is not longer than any such stream either, nor than the bytes plus 5.", "quantifier": "all such buffers, all competing DEFLATE streams, all options, formats, reliable sinks, flushes and endings", "why_tests_cant": "optimality over all streams that decode to the data, for every buffer", "anchors": ["src/squeeze.rs: lz77_optimal_fixed", "src/lz77.rs: find_longest_match", "src/deflate.rs: add_lz77_block_auto_type"]}
{"id": "C60", "title": "After an error, nothing acknowledged is lost or doubled in the encoder's state", "statement": "A client may go on after write() or flush() has returned an error, skipping the refused buffer or trying again. Every write() returns Ok with the length of its buffer, or an error. Whatever the sink does, the encoder then holds exactly the last acknowledged buffer and the last 32768 acknowledged bytes before it, nothing of a refused buffer; no call panics or hangs in a release build if the sink is honest about counts; and if finish() succeeds, all that the sink ever accepted starts with the header of the format and ends with the checksum (and for gzip the length) of exactly the acknowledged bytes, so that a decoder that accepts it has decoded bytes with that checksum: the damage a retry can do (C25) cannot pass for the right data unless the checksums collide.", "quantifier": "all formats, block types, options, sequences of calls, sinks with any behaviour (failing, recovering), both endings", "why_tests_cant": "all histories of failures and recoveries", "anchors": ["src/deflate.rs: DeflateEncoder::write, set_chunk", "src/gzip.rs: write, __finish", "src/zlib.rs: write, __finish"]}
{"id": "C61", "title": "Periodic data compress to a small fraction", "statement": "With BlockType::Fixed, bytes that repeat with a period p of at most 8192 (and fewer than 1.8 million of them; if p > 257, without runs of exactly 257 or 258 equal bytes), written in one call, take at most 9 bits for each byte of the first period, then 13 bits plus the extra bits of one distance for every 258 bytes, plus at most 35 + e bits; n equal bytes take at most 44 + 13*((n-1)/258) bits. This holds for all formats, options and reliable sinks.", "quantifier": "all periodic inputs, options, formats, reliable sinks, endings", "why_tests_cant": "all periods, contents and lengths", "anchors": ["src/lz77.rs: find_longest_match", "src/squeeze.rs: lz77_optimal_fixed, get_best_lengths", "src/deflate.rs: deflate_part"]}
{"id": "C62", "title": "What was written before is nearly free to write again", "statement": "With BlockType::Fixed, whenever the bytes of a write() repeat those a fixed distance d of at most 8192 bytes earlier, in the same write, in the one before or further back (for instance the same buffer of up to 8192 bytes written twice), that write takes at most 13 + e bits for every 258 bytes and 28 + e bits more, where e <= 11 is the number of extra bits of the distance: matches reach across write() calls.", "quantifier": "all sequences of writes, all distances up to 8192, all contents (for distances above 257 without runs of exactly 257 or 258 equal bytes), formats, options, reliable sinks", "why_tests_cant": "all contents and all histories of writes", "anchors": ["src/deflate.rs: DeflateEncoder::set_chunk, compress_chunk", "src/lz77.rs: find_longest_match", "src/squeeze.rs: lz77_optimal_fixed"]}
{"id": "C63", "title": "A block has its own codes only where they pay", "statement": "With BlockType::Dynamic (the default), a piece of a write that is written as a block with dynamic Huffman codes is strictly shorter, code description included, than any fixed-Huffman block with the same literals and copies: the description of the codes is never wasted.", "quantifier": "all sequences of writes of any length, formats, options, reliable sinks; all pieces of fewer than 2^24/9 bytes in which the match finder never has to give up; all fixed-Huffman encodings of the same symbols", "why_tests_cant": "all inputs, and all encodings of a block", "anchors": ["src/deflate.rs: add_lz77_block_auto_type, calculate_block_size", "src/squeeze.rs: lz77_optimal_fixed"]}
{"id": "C64", "title": "Working memory is invisible", "statement": "Neither what the memory returned by the allocator holds (the hash tables are initialised by raw writes in unsafe code), nor what earlier passes of the optimiser have left in the tables, cost buffers and item stores that are reused, nor the byte order of the machine, nor the sharing and in-place change of the arena nodes of the code length computation has an influence on the items and code lengths computed; no memory is read before it has been written.", "quantifier": "all contents of uninitialised memory, all earlier uses, all inputs, both byte orders", "why_tests_cant": "uninitialised memory and leftovers of earlier passes differ from run to run; tests see mostly zeroed memory", "anchors": ["src/hash.rs: ZopfliHash::new, init, reset", "src/squeeze.rs: get_best_lengths, lz77_optimal, lz77_optimal_fixed", "src/lz77.rs: Lz77Store::reset", "src/katajainen.rs: Thing, boundary_pm, boundary_pm_final"]}
{"id": "C65", "title": "The work is linear in the data", "statement": "Whatever the data are and however they are cut into writes, and also if the sink fails, an encoder returns after a number of steps bounded by a constant for each byte plus a constant for each call, where both constants depend on the options (iterations, blocks) only: no input makes the compressor quadratic. A single search for a match takes at most 273000 steps however long the chains of candidates are.", "quantifier": "all data, all portions, all options, all formats, all sinks that eventually answer", "why_tests_cant": "a bad input for the hash chains, the lazy matcher, the block splitter or the optimiser is a single one among infinitely many; timing tests show typical data only", "anchors": ["src/lz77.rs: find_longest_match_loop, MAX_CHAIN_HITS", "src/squeeze.rs: lz77_optimal, get_best_lengths", "src/blocksplitter.rs: blocksplit, find_minimum", "src/deflate.rs: deflate_part, DeflateEncoder"]}
{"id": "C66", "title": "The log is invisible and truthful", "statement": "Whatever logger is installed, whatever levels it enables and however its answers change over time, the encoders return the same results and write the same bytes as without one, and no report makes them panic, with or without overflow checks. What is reported is true: the split points are the points at which the block splitter splits (counted from the start of the part), the iterations are numbered from 0 without gaps and stay within the option, those reported as improvements have falling sizes of which the last is the size of what is used, and the sizes reported for the description of the codes and for the data of a block are the bytes of output they take.", "quantifier": "all loggers, all their states and answers, all data, all portions, all options, all formats, all sinks", "why_tests_cant": "the reports are computed only when a logger is enabled (with extra subtractions and assertions on that path), which tests do not install; the answers of a logger may change between any two messages", "anchors": ["src/blocksplitter.rs: print_block_split_points", "src/squeeze.rs: lz77_optimal", "src/deflate.rs: add_lz77_block", "src/lib.rs: debug!, trace!, log_enabled!"]}
{"id": "C67", "title": "A sink that panics", "statement": "When a method of the sink panics (or the sink claims to have written more than it was given, so that the caller does), the stack of the client is unwound and the encoder is dropped on the way. In a release build the process is not aborted by this unless the sink panics a second time, the panic reaches the client, the sink is left in exactly the state it would be in had it returned an error instead, and what it accepted before the panic is a prefix of the stream it would have received. If the sink does not panic, nothing panics. But the encoder writes to the sink again after the panic, and in a build with overflow checks one panic of the sink can abort the process.", "quantifier": "all sinks that may panic, fail or interrupt at any call, all data, all sequences of calls, all options, formats and endings", "why_tests_cant": "a panic can come from any of the calls of the sink, in any state of the encoder, and destructors run afterwards in a state that no return value describes", "anchors": ["src/deflate.rs: DeflateEncoder::drop, __finish, BitwiseWriter::add_bit, finish_partial_bits", "src/gzip.rs: GzipEncoder::drop", "src/zlib.rs: ZlibEncoder::drop", "src/io.rs: write_all"]}
{"id": "C68", "title": "compress with a reader or a sink that panics", "statement": "If the reader given to compress panics, the sink receives a complete, valid stream of exactly the data that was read before the panic reaches the caller, so the damage cannot be seen in the output; if the sink may also fail (but not panic), the process is not aborted, what the sink accepted before its first failure is a prefix of that stream, and compress returns only the error of the sink. If the sink panics at most once and the reader does not, the process is not aborted, compress panics only if the sink has, what the sink accepted before its first panic or failure is a prefix of the one stream for the data of the reader, and if it did neither, it received that stream and compress returned what the reader ended with; Ok is only returned in this case. All of the latter also holds if the input is a byte slice or another reader that lends its buffer (and does not panic), for which std::io::copy works in another way.", "quantifier": "all readers that deliver data in any fragments, interrupt, fail or panic, all byte slices and readers that lend their buffer in any parts, all sinks that may panic once, fail or interrupt at any call, all data, options and formats", "why_tests_cant": "the panic can come at any call, and what follows is done by destructors in BufWriter and the encoder, in any state of both", "anchors": ["src/lib.rs: compress", "src/deflate.rs: DeflateEncoder::drop", "src/gzip.rs: GzipEncoder::drop", "src/zlib.rs: ZlibEncoder::drop", "src/util.rs: ZOPFLI_MASTER_BLOCK_SIZE"]}
{"id": "C69", "title": "Targets with small machine words", "statement": "On a target whose usize has W bits, in builds with and without overflow checks, the code lengths computed for any frequencies, and the estimated sizes of blocks by which block types and block boundaries are chosen, are those of exact arithmetic: no intermediate sum overflows. On a 32-bit target this holds for all blocks of up to 14 000 000 bytes, and so for everything compress does, and on a 64-bit target for all data that fits in memory.", "quantifier": "all word sizes, all frequencies whose sum times (number of symbols + 14) fits, all sequences of items describing data, all ranges of them, both kinds of builds", "why_tests_cant": "overflow needs blocks of millions of bytes with particular statistics on a 32-bit machine, and depends on the weights of chains inside the package-merge algorithm", "anchors": ["src/katajainen.rs: length_limited_code_lengths, boundary_pm, boundary_pm_final", "src/deflate.rs: optimize_huffman_for_rle, calculate_tree_size, calculate_block_symbol_size, get_dynamic_lengths, calculate_block_size, calculate_block_size_auto_type", "src/lz77.rs: Lz77Store::get_byte_range"]}
{"id": "C70", "title": "Every way of handing data over, and encoders inside encoders", "statement": "write_all, write_vectored, write_all_vectored, write! and std::io::copy into an unbuffered encoder do exactly what one write per non-empty buffer (for copy: per piece of at most 8192 bytes read) does, on any sink and in any state, so nothing is lost or doubled whichever method a client uses; write_vectored returns the length of the first non-empty buffer. An encoder is a sink like any other: if an encoder writes to an encoder, a session on the outer one followed by finish of the inner one leaves in the sink a stream that decodes, by the inner and then the outer format, to the data; if both report success this holds for any sink; and nothing panics even if the sink fails again and again.", "quantifier": "all sequences of calls of all kinds, all readers, all pairs of formats, options and block types, all sinks (reliable, failing, arbitrary), both kinds of builds for the first part", "why_tests_cant": "the loops of the provided methods depend on every possible return value of write, and nesting composes two state machines over all call sequences and failures", "anchors": ["src/io.rs: Write::write_all", "src/deflate.rs: impl Write for DeflateEncoder", "src/gzip.rs: impl Write for GzipEncoder", "src/zlib.rs: impl Write for ZlibEncoder"]}
{"id": "C71", "title": "The same output on 32-bit and 64-bit targets", "statement": "The compressed form of a chunk does not depend on the width of usize, in builds with and without overflow checks, as long as 604 times its length (and 290 more) fits. So on a 32-bit target a session whose writes are at most 7 000 000 bytes long, with a plain or a buffered encoder, compress with any reader and data of any length, and compress with a slice of at most 7 000 000 bytes, and the program with files of any length have, on any sink, exactly the result and effect they have on a 64-bit target (release build), and the output decodes to the data; the overflow of the counter of written bytes after 4 GiB has no effect.", "quantifier": "all widths, options, block types, formats, data, sequences of calls, readers and sinks", "why_tests_cant": "the sizes at which 32-bit arithmetic could overflow depend on every intermediate sum over all possible data, and tests run on one target only", "anchors": ["src/squeeze.rs: SymbolStats, lz77_optimal", "src/katajainen.rs: length_limited_code_lengths", "src/deflate.rs: calculate_block_size, encode_tree, add_non_compressed_block, BitwiseWriter", "src/blocksplitter.rs: blocksplit", "src/lib.rs: compress", "src/main.rs: main, WriteStatistics"]}
{"id": "C72", "title": "In the default mode, too, what was written before is nearly free to write again", "statement": "With BlockType::Dynamic (the default), a write() of fewer than 1000 bytes whose bytes repeat those a fixed distance d of at most 8192 earlier, in the writes before, takes at most 13 + e bits for every 258 bytes and 30 + e bits for each of the blocks that maximum_block_splits allows, where e <= 11 is the number of extra bits of the distance. The same buffer of up to 999 bytes written twice takes, the second time, at most 22 bits for every 258 bytes and 39 bits for each allowed block.", "quantifier": "all sequences of writes, all distances up to 8192, all contents (for distances above 257 without 257 equal bytes in a row), all options, formats, endings and reliable sinks", "why_tests_cant": "the bound must hold whatever the cost model, the iterations and the block splitter do with the data; tests see a few buffers only", "anchors": ["src/deflate.rs: add_lz77_block_auto_type, blocksplit_attempt, DeflateEncoder::write", "src/squeeze.rs: lz77_optimal_fixed", "src/blocksplitter.rs: blocksplit"]}
{"id": "C73", "title": "A sink that panics under a buffered encoder", "statement": "Over an encoder made by new_buffered, a sink that panics at most once does not abort the process: the session ends normally, or the panic reaches the client; what the sink accepted before its first panic or failure is a prefix of the one stream it would have received, and success is reported only if it did neither. The sink is left in the state it would be in had it returned an error instead, except that the data that was waiting in the buffer is lost if the sink panics while the buffer is handed on: then it is in the state that an encoder without a buffer, given the joined writes, would have left it in.", "quantifier": "all sinks that may panic, fail or interrupt at any call, all data, all sequences of writes and flushes, all options, block types, formats and endings", "why_tests_cant": "a panic can come from any call of the sink, in any state of the buffer and of the encoder, and the destructors of both run afterwards", "anchors": ["src/deflate.rs: DeflateEncoder::new_buffered, drop", "src/gzip.rs: GzipEncoder::new_buffered, drop", "src/zlib.rs: ZlibEncoder::new_buffered, drop"]}
{"id": "C74", "title": "Every way of handing data to a buffered encoder; compress with a VecDeque", "statement": "On an encoder made by new_buffered, write_all, write_all_vectored and write! do exactly what one write per non-empty buffer does, on any sink, so whole sessions agree and the stream decodes to all the data handed over; write_vectored takes whole buffers from the front as if they were written one by one, at least one that is not empty if there is one, and returns the number of bytes taken. compress with a VecDeque<u8> as its input succeeds on a sink that does not fail and writes one stream for the contents, wherever the ring buffer wraps around (up to 1,000,000 bytes the stream of a slice with the same bytes); a failing sink leads to its error and a proper prefix of the stream; and it never panics or hangs.", "quantifier": "all sequences of calls of these kinds, all contents and all positions of the wrap, all formats, options and block types, all sinks (reliable, failing, arbitrary), both kinds of builds for the first part", "why_tests_cant": "the vectored methods split their work at places that depend on how full the buffer is, and loop on every possible result", "anchors": ["src/lib.rs: compress", "src/deflate.rs: DeflateEncoder::new_buffered", "src/gzip.rs: GzipEncoder::new_buffered", "src/zlib.rs: ZlibEncoder::new_buffered"]}
{"id": "C75", "title": "compress takes linear work, and each call takes bounded work and memory", "statement": "compress returns after a number of steps bounded by a constant for each byte of the input plus a constant for each 991809 bytes (500000 if the input is a byte slice or another reader that lends its buffer), both depending on the options only; without a failure each byte is compressed once, and on any failure the bound grows by a constant factor. A session with an encoder made by new_buffered takes a constant for each byte, four steps for each call, and the constant for a chunk only once for each 500000 bytes and for each flush: data may be written byte by byte. If no buffer was longer than n bytes, then however many calls an encoder has already served, and whatever they returned, it holds at most 32768 + n bytes and its next write, flush, finish or drop takes a number of steps bounded by n and the options alone: a stream can be of any length.", "quantifier": "all data, all portions in which the reader delivers them, all failures and interruptions of reader and sink, all formats and options; all histories of calls, all sinks", "why_tests_cant": "the slowest data, reader and history are single cases among infinitely many; a cost that grows with the history shows only after long runs", "anchors": ["src/lib.rs: compress", "src/deflate.rs: DeflateEncoder::new_buffered", "src/deflate.rs: DeflateEncoder::write, set_chunk, compress_chunk", "src/gzip.rs: GzipEncoder", "src/zlib.rs: ZlibEncoder"]}
{"id": "C76", "title": "What the platform's logarithm can influence", "statement": "f64::log2 is the one floating point operation whose result Rust leaves to the platform. With stored or fixed blocks nothing depends on it. With dynamic blocks the code only asks for logarithms of integers: two platforms whose log2 agree on integers write the same bytes in the same portions, report the same results and leave the same files behind, with every encoder, with compress and with the program, in release and debug builds, even if the sink or the reader fails. In release builds finitely many logarithms are enough: as long as no write has more than N bytes only the logarithms of the integers from 1 to 576*(N+1) matter, however many writes there are; for compress and the program, with inputs of any length, the integers up to 2^30 suffice.", "quantifier": "all pairs of logarithms, all data, calls, options, formats, sinks and readers (also failing ones), all command lines and file systems", "why_tests_cant": "a test runs with the logarithm of one machine; a dependence on some other value of log2 may show only for rare data on a platform nobody tried", "anchors": ["src/squeeze.rs: SymbolStats::calculate_entropy", "src/math.rs: F64MathExt::log2", "src/deflate.rs: deflate_part", "src/lib.rs: compress", "src/main.rs: main"]}
{"id": "C77", "title": "Sinks with a write_all of their own", "statement": "An encoder uses its sink only through write_all and flush, never through write. write_all is a provided method that a sink may replace; the byte slice, the vector and mutable references do so. If the replacement does what the provided loop over write does, as for slices and vectors, nothing observable changes. With any replacement that writes nothing for an empty buffer and does not report an interruption: if it works, the sink receives the same stream as any other sink, with plain and buffered encoders and with compress, and the stream decodes to the data; if it fails, at whatever point and after whatever part of the buffer, the session reports the first failure, and the buffers taken before make up a proper prefix of the stream; a session that reports success has handed over exactly the stream; nothing panics or hangs unless write_all does.", "quantifier": "all sinks with any implementation of write, write_all and flush keeping the contract of write_all, all data, calls, options, formats and endings, release and debug builds", "why_tests_cant": "a test tries a few sinks of std; the trait can be implemented by any user type, and each may fail at any call", "anchors": ["src/io.rs: Write::write_all", "src/io.rs: impl Write for &mut [u8]", "src/io.rs: impl Write for Vec<u8>", "src/io.rs: impl Write for &mut W", "src/deflate.rs: BitwiseWriter::add_bytes", "src/gzip.rs: GzipEncoder::new, __finish", "src/zlib.rs: ZlibEncoder::new, __finish"]}
{"id": "C78", "title": "Computing and writing by turns", "statement": "The compressor does not compute everything and then write: it writes the bits of a block header, goes on to compute the trees, writes the trees, and so on, and stops at the first call of the sink that fails. This makes no observable difference: with any sink, failing or not, a session (with a plain or buffered encoder), compress and the command-line program have the result, and leave the sink in the state, of computing everything first and then performing the same writes in the same order up to the first failure. So a session on a reliable sink writes a stream that decodes to the data, and on a failing sink it reports the first failure after a prefix of the stream has been accepted. The lazy iterator that marks the last chunk yields every item of the iterator it is made of, in order, with true for the last one only.", "quantifier": "all sinks, all readers, all data, calls, options, block types, formats, endings and failure points, release and debug builds; all iterators that come to an end", "why_tests_cant": "a test observes a few sinks and failure points; the order of computing and writing matters at every one of them", "anchors": ["src/deflate.rs: deflate_part", "src/deflate.rs: add_lz77_block", "src/deflate.rs: encode_tree", "src/deflate.rs: add_lz77_data", "src/deflate.rs: add_non_compressed_block", "src/deflate.rs: BitwiseWriter", "src/iter.rs: FlagLastIterator", "src/lib.rs: compress"]}
{"id": "C79", "title": "Compressing into a part of a memory", "statement": "If the sink is a byte slice that is a part of a larger array of the caller, then whatever is compressed, with an encoder or with compress, however the session ends: nothing outside the slice changes, nothing behind the last written byte changes, and the slice that the caller gets back is exactly the part behind the written bytes. If the stream fits, it is in the array at the place where the slice began, whatever was there before; if not, the session fails with WriteZero and the slice is full of the beginning of the stream. Writing to a slice does not panic.", "quantifier": "all arrays, contents, positions and lengths of the slice, all data, calls, options, formats and endings, all readers, release and debug builds", "why_tests_cant": "a test compares the surroundings of a few slices; a stray write can happen at any offset", "anchors": ["src/io.rs: impl Write for &mut [u8]", "src/deflate.rs: DeflateEncoder", "src/gzip.rs: GzipEncoder", "src/zlib.rs: ZlibEncoder", "src/lib.rs: compress"]}

{"id": "C01", "title": "Ring buffer is a lossless FIFO", "statement": "The bytes/elements a consumer obtains through front()/pop() of stdex::ring are, in order, exactly a prefix of the elements the producer committed through back()/push(); the elements committed and not yet popped are exactly the contents still to be delivered. Nothing is lost, duplicated, reordered or overwritten, across any number of wrap-arounds.", "quantifier": "every capacity N>0, every interleaving and every length of the sequence of back/write/push/front/pop calls, every chunk size", "why_tests_cant": "wrap-around and chunk-size combinations are unbounded; a test covers a handful of capacities and interleavings", "anchors": ["include/stdex/ring.hpp: ring::back, ring::push, ring::front, ring::pop"]}
{"id": "C02", "title": "Ring windows stay inside the buffer and never alias", "statement": "The (pointer, length) window back() grants lies inside the N-element array, is non-empty, contains no element that is committed and not popped, and the window front() grants is non-empty, lies inside the array and contains only committed elements.", "quantifier": "every reachable ring state, every N>0", "why_tests_cant": "out-of-bounds windows appear only at specific head/size combinations for specific N", "anchors": ["include/stdex/ring.hpp: ring::back, ring::front"]}
{"id": "C03", "title": "Ring shutdown semantics", "statement": "After quit(), no call to front() or back() or sync() blocks; front() still delivers every element committed before and returns null only when none is left; back() returns null only if the ring was full when it was called.", "quantifier": "every state in which quit is called and every later sequence of calls", "why_tests_cant": "shutdown races are schedule dependent", "anchors": ["include/stdex/ring.hpp: ring::quit, ring::front, ring::back, ring::sync"]}
{"id": "C04", "title": "Ring never deadlocks with one producer and one consumer", "statement": "With one producer thread and one consumer thread there is no reachable state of the mutex/condition-variable protocol in which a thread sleeps although the condition it waits for holds and nobody will wake it (no lost wake-up), so whenever one side waits the other side can proceed.", "quantifier": "all interleavings of the atomic steps of the two threads, including spurious wake-ups, for every N>0", "why_tests_cant": "lost wake-ups depend on the scheduler; a stress test can miss them forever", "anchors": ["include/stdex/ring.hpp: ring::back, ring::push, ring::front, ring::pop, ring::sync"]}
{"id": "C05", "title": "Hex encoder/decoder round trip", "statement": "Decoding the hexadecimal encoding of any byte string yields the byte string, no matter how the input of the encoder and the text given to the decoder are split into successive calls.", "quantifier": "all byte strings, all splittings into chunks", "why_tests_cant": "infinitely many strings and splittings", "anchors": ["include/stdex/hex.hpp: hex_enc::encode, hex_dec::decode"]}
{"id": "C06", "title": "Hex decoder ignores noise and respects its size bound", "statement": "Inserting any non-hexadecimal (non NUL) characters anywhere in the text does not change what the hex decoder produces, text after a NUL is ignored, and one decode call never appends more than dec_size(length) bytes; encode appends exactly enc_size(length) characters.", "quantifier": "all texts, all decoder states", "why_tests_cant": "all lengths and noise positions", "anchors": ["include/stdex/hex.hpp: hex_dec::decode, hex_dec::dec_size, hex_enc::enc_size"]}
{"id": "C07", "title": "Base64 encoder conforms to RFC 4648 for every chunking", "statement": "The concatenated output of successive encode calls (the last with is_last) is the RFC 4648 base64 of the concatenated input, with correct = padding, independent of how the input was split.", "quantifier": "all byte strings, all splittings", "why_tests_cant": "carry between calls depends on length mod 3 of every prefix", "anchors": ["include/stdex/base64.hpp: base64_enc::encode"]}
{"id": "C08", "title": "Base64 decoder inverts the encoder", "statement": "Feeding the encoder's output to the decoder, in any splitting and with any non-alphabet characters (line breaks, blanks) inserted anywhere, yields the original bytes and reports is_last exactly when a padded block was consumed.", "quantifier": "all byte strings, all splittings, all noise", "why_tests_cant": "unbounded inputs and split positions", "anchors": ["include/stdex/base64.hpp: base64_dec::decode, base64_enc::encode"]}
{"id": "C09", "title": "Base64 buffer size predictions are upper bounds", "statement": "A call to encode appends at most enc_size(n) characters and a call to decode at most dec_size(n) bytes, in every carry state of the coder.", "quantifier": "every carry state, every n, both is_last values", "why_tests_cant": "buffer overflow would occur only in specific carry states", "anchors": ["include/stdex/base64.hpp: base64_enc::enc_size, base64_dec::dec_size"]}
{"id": "C10", "title": "Base64 stream filter round trip", "statement": "Reading through base64_reader from the text produced by base64_writer returns exactly the bytes written, for any sequence of write lengths and read lengths.", "quantifier": "all byte strings, all sequences of write/read lengths, every max_blocks", "why_tests_cant": "the loss happens only for specific alignments of requests and blocks", "anchors": ["include/stdex/base64.hpp: base64_writer::write, base64_reader::read"]}
{"id": "C11", "title": "vector_queue is a bounded deque", "statement": "Any sequence of push_back/pop_back/push_front/pop_front/clear on vector_queue with capacity n behaves as a list of at most n elements where push_back on a full queue drops the oldest element and push_front on a full queue drops the newest; at/operator[]/front/back address the list positions.", "quantifier": "all capacities, all operation sequences, all element types", "why_tests_cant": "index arithmetic modulo capacity in 64-bit arithmetic fails only for particular head positions and capacities", "anchors": ["include/stdex/vector_queue.hpp: push_back, pop_back, push_front, pop_front, at, operator[], front, back, clear"]}
{"id": "C12", "title": "vector_queue copies are equal and independent", "statement": "Copy construction, copy assignment and move construction give a queue with the same capacity and the same element sequence as the source (before the move), regardless of where the source's head is.", "quantifier": "all reachable queues", "why_tests_cant": "head offset/size combinations are unbounded", "anchors": ["include/stdex/vector_queue.hpp: copy constructor, operator=, move constructor"]}
{"id": "C13", "title": "Interval algebra", "statement": "interval: empty, size and contains agree (half-open: x is contained iff start<=x<end; empty iff nothing is contained; size is the number of contained positions), shifting by + / - translates membership, and ++/-- are their own inverses.", "quantifier": "all bounds in an unbounded ordered integer domain", "why_tests_cant": "all triples of bounds", "anchors": ["include/stdex/interval.hpp: struct interval"]}
{"id": "C14", "title": "Object pool never hands out an object twice", "statement": "An object handed in with push is returned by at most one pop, only by a pop for the same pool/NUMA node, most recently pushed first; pop on an empty pool returns a null object; clear discards everything.", "quantifier": "all operation sequences over all NUMA nodes", "why_tests_cant": "histories are unbounded", "anchors": ["include/stdex/pool.hpp: pool::push, pool::pop, pool::clear"]}
{"id": "C15", "title": "Checked size arithmetic", "statement": "add(a,b) and mul(a,b) either return the exact mathematical sum/product or throw, and throw exactly when the result does not fit size_t.", "quantifier": "all pairs of 64-bit values", "why_tests_cant": "2^128 pairs", "anchors": ["include/stdex/math.hpp: stdex::mul, stdex::add"]}
{"id": "C16", "title": "Rotation and scaled multiplication", "statement": "rol rotates bits left (composition of rotations adds amounts, rol by k then by w-k is the identity), and 32-bit muldiv(a,b,c) equals floor/truncated a*b/c computed without intermediate overflow whenever the quotient fits.", "quantifier": "all operands", "why_tests_cant": "2^96 operand combinations", "anchors": ["include/stdex/math.hpp: rol, muldiv"]}
{"id": "C17", "title": "Byte swapping is an involution and little/big-endian conversion is lossless", "statement": "byteswap applied twice is the identity for every 16/32/64-bit value, reverses the byte representation, and the endian conversions LE2HE/HE2LE/BE2HE/HE2BE are mutually inverse.", "quantifier": "all values", "why_tests_cant": "2^64 values", "anchors": ["include/stdex/endian.hpp: byteswap, LE2HE, HE2LE"]}
{"id": "C18", "title": "Block hashes are independent of how the data is split", "statement": "For MD5 and SHA-1, hashing a message in any number of hash() calls of any sizes and then finalize() gives the same digest as hashing it in one call.", "quantifier": "all messages, all splittings", "why_tests_cant": "buffer-carry combinations unbounded", "anchors": ["include/stdex/hash.hpp: block_hash::hash, md5_hash, sha1_hash"]}
{"id": "C19", "title": "Block hash padding is Merkle-Damgard with exact bit length", "statement": "finalize() digests exactly the message, 0x80, the minimal number of zeros, and the 64-bit message bit length (little-endian for MD5, big-endian for SHA-1), i.e. the RFC 1321 / FIPS 180 padding; the length counter is the message length in bits modulo 2^64.", "quantifier": "all message lengths", "why_tests_cant": "lengths around block boundaries and beyond 2^29 and 2^32 bytes", "anchors": ["include/stdex/hash.hpp: md5_hash::finalize, sha1_hash::finalize, block_hash::hash"]}
{"id": "C20", "title": "CRC-32 table and incremental computation", "statement": "crc32_hash computes the reflected CRC-32 (polynomial EDB88320, initial and final complement) of the concatenation of all chunks; the 256-entry table equals the bitwise definition.", "quantifier": "all byte strings, all splittings", "why_tests_cant": "infinitely many inputs", "anchors": ["include/stdex/hash.hpp: crc32_hash::hash, crc32_hash::finalize"]}
{"id": "C21", "title": "Hashing stream filter is transparent", "statement": "stream_hasher returns the same data/lengths and state as the wrapped stream and feeds to the hash exactly the bytes that were transferred, in order, so the digest is that of the transferred data.", "quantifier": "all streams, all request sequences incl. short reads/writes", "why_tests_cant": "partial transfers and failures are unbounded", "anchors": ["include/stdex/hash.hpp: stream_hasher::read, stream_hasher::write"]}
{"id": "C22", "title": "Digest equality is byte equality", "statement": "operator== on MD5/SHA-1 digests is true iff all bytes/words are equal, and operator!= is its negation.", "quantifier": "all pairs of digests", "why_tests_cant": "2^256 pairs", "anchors": ["include/stdex/hash.hpp: md5_t operator==, sha1_t operator=="]}
{"id": "C23", "title": "Position mapping by bisection equals the linear definition", "statement": "dst2src/src2dst over a sorted mapping vector return: the exact partner if an anchor equals the position; the anchor's partner plus the offset from the closest preceding anchor otherwise; and, before the first anchor, the minimum of the position and the first anchor's partner.", "quantifier": "all sorted mapping vectors, all positions", "why_tests_cant": "unbounded vectors and positions; off-by-one in bisection shows only at some sizes", "anchors": ["include/stdex/mapping.hpp: dst2src, src2dst"]}
{"id": "C24", "title": "Hinted position mapping equals the un-hinted one", "statement": "Calling dst2src/src2dst with any hint index and the hint updated by previous calls returns the same position as the version without the hint.", "quantifier": "all vectors, positions, hints, call histories", "why_tests_cant": "hint state is history dependent", "anchors": ["include/stdex/mapping.hpp: dst2src, src2dst (with offset hint)"]}
{"id": "C25", "title": "Mapping inversion", "statement": "mapping::invert is an involution, and inverting all anchors turns dst2src into src2dst.", "quantifier": "all mapping vectors", "why_tests_cant": "unbounded vectors", "anchors": ["include/stdex/mapping.hpp: mapping::invert, dst2src, src2dst"]}
{"id": "C26", "title": "Spin lock mutual exclusion", "statement": "At most one thread is between a successful lock()/try_lock() and its unlock(); try_lock succeeds only if the lock is free; an unlocked lock can always be acquired.", "quantifier": "all interleavings of any number of threads", "why_tests_cant": "schedules are unbounded", "anchors": ["include/stdex/spinlock.hpp: spinlock::lock, try_lock, unlock"]}
{"id": "C27", "title": "Watchdog fires iff it was not reset within the timeout", "statement": "The watchdog callback fires exactly when a whole timeout period passes with no reset() and no stop(): never while resets keep arriving each period, once per missed period, never after the destructor returned; no reset or quit is lost on the sleeping watchdog thread.", "quantifier": "all sequences of reset/timeout/quit events", "why_tests_cant": "timing dependent schedules", "anchors": ["include/stdex/watchdog.hpp: watchdog::run, reset"]}
{"id": "C28", "title": "memory_file behaves like an abstract byte array with a cursor", "statement": "Any sequence of read/write/write_byte/seek/truncate on memory_file gives the data, lengths, positions and states of an abstract file: reads return the bytes last written, a short read returns what is available, reading at the end sets eof, writes overwrite/extend, truncate cuts at the cursor.", "quantifier": "all operation sequences, all data", "why_tests_cant": "histories unbounded; seek beyond the end is a corner case", "anchors": ["include/stdex/stream.hpp: memory_file::read, write, write_byte, seek, truncate"]}
{"id": "C29", "title": "memory_file never touches memory outside its allocation", "statement": "For every operation sequence 0<=size<=reserved holds and every copied range lies in [0,reserved) of the block; reserve keeps the contents and grows to at least the requested size.", "quantifier": "all operation sequences", "why_tests_cant": "memory errors occur only for certain offset/size combinations", "anchors": ["include/stdex/stream.hpp: memory_file::reserve, read, write, truncate"]}
{"id": "C30", "title": "fifo stream is an unbounded lossless byte queue", "statement": "Bytes written to fifo are read back exactly once, in order, for any sequence of write and read lengths; size() is the number of bytes not yet read; eof is reported iff a non-empty read finds the queue empty.", "quantifier": "all operation sequences", "why_tests_cant": "chunk boundary combinations unbounded", "anchors": ["include/stdex/stream.hpp: fifo::read, fifo::write, fifo::size"]}
{"id": "C31", "title": "Array reads count only complete elements", "statement": "read_array returns the number of array elements completely filled with data from the stream.", "quantifier": "all element sizes, counts and stream contents/short reads", "why_tests_cant": "short read lengths that are not element multiples", "anchors": ["include/stdex/stream.hpp: basic::read_array"]}
{"id": "C32", "title": "Stream copy is complete or reports failure", "statement": "write_stream copies all remaining source bytes to the destination (or `amount` of them) and if a write fails the destination's state is not ok afterwards and the returned amount is the number of bytes accepted.", "quantifier": "all sources, destinations with arbitrary short writes/failures, all amounts", "why_tests_cant": "failure points are unbounded", "anchors": ["include/stdex/stream.hpp: basic::write_stream"]}
{"id": "C33", "title": "Serialization round trip of scalars and strings", "statement": "A value (integers of every width, strings with 32-bit length prefix) written with << / write_data / write_str and read back with >> / read_data / read_str yields the same value and leaves the stream positioned just after it; sequences of values read back in the order written.", "quantifier": "all values, all sequences of values, all transports with short transfers", "why_tests_cant": "unbounded values", "anchors": ["include/stdex/stream.hpp: read_data, write_data, read_str, write_str, operator<<, operator>>"]}
{"id": "C34", "title": "readln splits a stream at line ends", "statement": "readln returns the bytes up to the next \\n without the terminator and without one preceding \\r, repeated readln partitions the stream contents: no byte of any line is lost or duplicated.", "quantifier": "all byte contents", "why_tests_cant": "unbounded contents", "anchors": ["include/stdex/stream.hpp: readln_and_attach, readln"]}
{"id": "C35", "title": "Buffered stream is transparent", "statement": "Data written through stdex::stream::buffer in any sequence of write lengths arrives at the underlying stream, after flush, exactly once in order; data read through it is exactly what the source delivers, regardless of buffer sizes and of short reads.", "quantifier": "all buffer sizes, all request sequences, all source chunkings", "why_tests_cant": "unbounded chunkings", "anchors": ["include/stdex/stream.hpp: buffer::read, buffer::write, buffer::flush_write"]}
{"id": "C36", "title": "limiter never transfers more than its limit", "statement": "Through limiter the total number of bytes read (written) never exceeds the limit, everything below the limit is passed unchanged, and the remaining limit is reduced by exactly what was transferred.", "quantifier": "all limits, all request sequences", "why_tests_cant": "histories unbounded", "anchors": ["include/stdex/stream.hpp: limiter::read, limiter::write"]}
{"id": "C37", "title": "window exposes exactly the requested region", "statement": "Through window, reads return only bytes of [offset, offset+limit) of the source and skip exactly the bytes before it.", "quantifier": "all offsets, limits, request sequences, short skips", "why_tests_cant": "histories unbounded", "anchors": ["include/stdex/stream.hpp: window::read, window::write"]}
{"id": "C38", "title": "file_window confines access to its region", "statement": "All reads and writes through file_window stay inside [offset, offset+size) of the underlying file, and tell/seek are consistent (tell after seek(x) is x).", "quantifier": "all operation sequences", "why_tests_cant": "histories unbounded", "anchors": ["include/stdex/stream.hpp: file_window"]}
{"id": "C39", "title": "Cache is transparent", "statement": "Reading and writing a file through stdex::stream::cache, interleaved arbitrarily with seeks, gives the same results as performing the operations on the file directly, and after flush the file has the same contents.", "quantifier": "all block sizes, all operation sequences, all file contents", "why_tests_cant": "block boundary/dirty/loaded combinations over unbounded histories", "anchors": ["include/stdex/stream.hpp: cache::read, write, seek, size, truncate, flush_cache, load_cache, write_cache"]}
{"id": "C40", "title": "Asynchronous read-ahead and write-behind preserve the stream", "statement": "Bytes obtained from async_reader are the source's bytes in order; bytes handed to async_writer reach the destination in order, exactly once, and flush returns only after everything written before was delivered (or the destination failed).", "quantifier": "all schedules of worker and user threads, all buffer sizes, all chunkings", "why_tests_cant": "thread schedules unbounded", "anchors": ["include/stdex/stream.hpp: async_reader, async_writer"]}
{"id": "C41", "title": "replicator delivers every operation to every sink", "statement": "Each write/close/flush on replicator is applied to every attached stream exactly once and in the same order, the next operation does not start before every sink finished, and the reported result is the minimum success / a failure if any sink failed.", "quantifier": "all schedules of worker threads, any number of sinks, all operation sequences", "why_tests_cant": "thread schedules unbounded", "anchors": ["include/stdex/stream.hpp: replicator, replicator::worker, write_worker"]}
{"id": "C42", "title": "Byte-order-mark detection", "statement": "read_charset recognises UTF-32LE, UTF-16LE and UTF-8 byte order marks, prefers the longest, returns the default when none is present, and leaves the file positioned right after the mark or at the start when there is none.", "quantifier": "all file contents", "why_tests_cant": "all prefixes and lengths", "anchors": ["include/stdex/stream.hpp: basic_file::read_charset"]}
{"id": "C43", "title": "String comparison is the lexicographic order of NUL-terminated strings", "statement": "strcmp/strncmp return negative/zero/positive according to the lexicographic order of the strings cut at the first NUL or count; hence they are total preorders, antisymmetric, and zero iff equal strings.", "quantifier": "all strings, all counts", "why_tests_cant": "unbounded strings", "anchors": ["include/stdex/string.hpp: strcmp, strncmp"]}
{"id": "C44", "title": "Substring search returns the first occurrence", "statement": "strstr/strnstr return the smallest index at which the pattern occurs in the (NUL/count terminated) text and report not found iff there is no occurrence.", "quantifier": "all texts and patterns", "why_tests_cant": "unbounded strings", "anchors": ["include/stdex/string.hpp: strstr, strnstr"]}
{"id": "C45", "title": "Character search", "statement": "strnchr returns the first index, strrnchr the last index of a character inside the string, and npos iff it does not occur before the terminator.", "quantifier": "all strings and characters", "why_tests_cant": "unbounded strings", "anchors": ["include/stdex/string.hpp: strchr, strnchr, strrchr, strrnchr"]}
{"id": "C46", "title": "Bounded copy and concatenation never overflow", "statement": "strncpy/strncat write at most the destination's capacity, copy the longest prefix that fits, keep bytes beyond untouched, and NUL terminate whenever there is room.", "quantifier": "all strings, capacities", "why_tests_cant": "unbounded sizes; off-by-one at capacity", "anchors": ["include/stdex/string.hpp: strcpy, strncpy, strcat, strncat"]}
{"id": "C47", "title": "Trimming removes exactly the leading/trailing blanks", "statement": "ltrim/rtrim/trim return the unique maximal stripping: the result has no leading (trailing) space, it is an infix of the input and all removed characters are spaces; trimming is idempotent.", "quantifier": "all strings", "why_tests_cant": "unbounded strings", "anchors": ["include/stdex/string.hpp: ltrim, rtrim, trim"]}
{"id": "C48", "title": "CRLF conversion", "statement": "crlf2nl replaces each CR LF pair by LF, leaves all else unchanged, and never grows the string.", "quantifier": "all strings", "why_tests_cant": "unbounded strings", "anchors": ["include/stdex/string.hpp: crlf2nl"]}
{"id": "C49", "title": "Integer parsing", "statement": "strtoint/strtouint parse [blanks][sign][base prefix]digits: the value equals the mathematical value of the digit string when representable and saturates/reports overflow otherwise; the end index points behind the last digit consumed.", "quantifier": "all texts, all bases 0..36, all widths", "why_tests_cant": "unbounded digit strings; overflow boundary", "anchors": ["include/stdex/string.hpp: strtoint, strtouint"]}
{"id": "C50", "title": "UTF-16 surrogate handling is lossless", "statement": "Converting a supplementary code point to a surrogate pair and back is the identity, pairs are recognised exactly, and UTF-16 to UTF-32 conversion of a well-formed text yields its code points.", "quantifier": "all code points, all texts", "why_tests_cant": "unbounded texts", "anchors": ["include/stdex/string.hpp: ucs4_to_surrogate_pair, surrogate_pair_to_ucs4, is_surrogate_pair, strncpy(utf32,utf16)"]}
{"id": "C51", "title": "ASCII case mapping", "statement": "tolower/toupper map exactly the ASCII letters and leave other characters unchanged; toupper(tolower(c)) restores upper-case letters.", "quantifier": "all characters", "why_tests_cant": "all character codes of a 32-bit type", "anchors": ["include/stdex/string.hpp: tolower, toupper"]}
{"id": "C52", "title": "Calendar conversion is a bijection", "statement": "aosn_date from_dmy/to_dmy are mutually inverse on valid dates, consecutive days have consecutive numbers, and day_of_week advances by one modulo 7.", "quantifier": "all valid dates of the proleptic Gregorian calendar from 1 March of year 0 to February 1469900 (the limit of the 32-bit day number)", "why_tests_cant": "millions of dates; leap-rule boundaries", "anchors": ["include/stdex/chrono.hpp: aosn_date::from_dmy, to_dmy, day_of_week"]}
{"id": "C53", "title": "Time stamp conversions are consistent", "statement": "aosn_timestamp/aosn_date conversions to and from time_t, date+time-of-day and d/m/y h:m:s.ms are mutually inverse and order preserving; conversion from timespec keeps the millisecond.", "quantifier": "all time stamps", "why_tests_cant": "all 64-bit values", "anchors": ["include/stdex/chrono.hpp: aosn_timestamp::to_time_t, from_time_t, from_dmy, to_dmy, from_system"]}
{"id": "C54", "title": "Record container: padding, skipping and finding", "statement": "idrec records are padded to the alignment; ignore skips exactly one record including padding; find positions at the first record with the requested id or reports failure; a record written by open/close has the size field of its payload and can be read back.", "quantifier": "all record sequences, sizes, alignments", "why_tests_cant": "unbounded files", "anchors": ["include/stdex/idrec.hpp: ignore, find, open, close, record"]}
{"id": "C55", "title": "Aggregated progress equals the sum of workers", "statement": "After any interleaving of set/set_range/attach/detach of workers the aggregate progress host holds the sum of worker positions and of worker ranges.", "quantifier": "all schedules, any number of workers", "why_tests_cant": "interleavings unbounded", "anchors": ["include/stdex/progress.hpp: aggregate_progress"]}
{"id": "C56", "title": "Progress sections map linearly into the global range", "statement": "global_progress maps the local range onto the section: start to section start, end to section end, monotonically, never leaving the section.", "quantifier": "all ranges, sections and values for which the product of the two sizes is representable in T (it is computed in T)", "why_tests_cant": "unbounded arithmetic", "anchors": ["include/stdex/progress.hpp: global_progress::set, set_range"]}
{"id": "C57", "title": "Lazy progress forwards the endpoints and never repeats values", "statement": "lazy_progress forwards a value at range start and end always, forwards others only when changed and rate limit passed; the last forwarded value is one set by the caller.", "quantifier": "all call sequences and clock readings", "why_tests_cant": "timing dependent", "anchors": ["include/stdex/progress.hpp: lazy_progress"]}
{"id": "C58", "title": "UUID text round trip and rejection", "statement": "strtouuid(uuidtostr(u)) = u for every UUID; a text that is not of the form hex8-hex4-hex4-hex4-hex12 with separators is rejected, and nothing beyond count is read.", "quantifier": "all UUIDs, all texts", "why_tests_cant": "2^128 UUIDs, unbounded texts", "anchors": ["include/stdex/uuid.hpp: uuidtostr, strtouuid"]}
{"id": "C59", "title": "Minisign signature parsing", "statement": "A base64 minisign line yields algorithm, key id and signature with the exact bytes of the decoded blob iff it decodes to a long enough blob with the right algorithm letter, and is rejected otherwise.", "quantifier": "all texts", "why_tests_cant": "unbounded texts", "anchors": ["include/stdex/minisign.hpp: parse_minisig"]}
{"id": "C60", "title": "SGML entity encoding is reversible", "statement": "Decoding the SGML encoding of any text yields the text; text without & is copied unchanged; malformed entities are copied literally.", "quantifier": "all texts", "why_tests_cant": "unbounded texts", "anchors": ["include/stdex/sgml.hpp: sgml2str, str2sgml"]}
{"id": "C61", "title": "Parser combinators match languages", "statement": "A tree of parsers built of sequence, branch, iterations and permutation over any elementary parsers always terminates; it succeeds just when its elements do as composed: one after another, the first that matches, the required number of times (greedy or not), in some order; its interval is then [start,end) of the text consumed, and is invalid on failure. The outcome does not depend on earlier matches. search finds the first position that matches.", "quantifier": "all texts, start positions, all parser trees of any depth and size, all previous states", "why_tests_cant": "unbounded texts and grammars", "anchors": ["include/stdex/parser.hpp: basic_parser::search, basic_iterations, basic_sequence, basic_branch, basic_permutation"]}
{"id": "C62", "title": "Line breaks and glyph lengths", "statement": "islbreak returns the length of the line break at the start of a text (CR, LF, CR LF, LF CR ...) and 0 if there is none; glyphlen/glyphrlen return the number of code units of the glyph starting at (ending before) a position: a base character, as a surrogate pair if need be, with all combining marks that follow it.", "quantifier": "all texts", "why_tests_cant": "unbounded texts", "anchors": ["include/stdex/string.hpp: islbreak, glyphlen, glyphrlen"]}
{"id": "C63", "title": "progress_switcher restores the host", "statement": "While a progress_switcher lives, the variable it was constructed with refers to it and it forwards to the indicator the variable referred to before; after any properly nested scopes with switchers the variable refers to the original indicator again.", "quantifier": "all nestings and sequences of scopes", "why_tests_cant": "nesting unbounded", "anchors": ["include/stdex/progress.hpp: progress_switcher"]}
{"id": "C64", "title": "timeout_progress cancels after its timeout", "statement": "cancel() of timeout_progress is true exactly if the host cancels or more than the timeout has passed since construction, and having timed out it stays true on a clock that does not go back.", "quantifier": "all clock readings, timeouts, hosts", "why_tests_cant": "timing dependent", "anchors": ["include/stdex/progress.hpp: timeout_progress"]}
{"id": "C65", "title": "A detached host indicator is not used any more", "statement": "aggregate_progress calls a host indicator only while it is attached: when detach() has returned it (or attach() replaced it) no worker thread is within a call of it, so that it can be destroyed.", "quantifier": "all schedules, any number of workers and threads that attach and detach", "why_tests_cant": "interleavings unbounded", "anchors": ["include/stdex/progress.hpp: aggregate_progress::attach, detach, worker_progress"]}
{"id": "C66", "title": "SGML error location", "statement": "sgmlerr returns the index of the first ampersand that does not begin an entity the decoder understands or, when ASCII is requested, of the first character beyond ASCII that is not part of an entity, whichever is first; and npos iff there is none.", "quantifier": "all texts", "why_tests_cant": "unbounded texts", "anchors": ["include/stdex/sgml.hpp: sgmlerr"]}
{"id": "C67", "title": "SGML decoding maps positions", "statement": "The map that sgml2strcat fills translates the position of every piece of the source (character or entity) to the position of its text in the destination and back.", "quantifier": "all texts, all positions at piece boundaries, all initial offsets", "why_tests_cant": "unbounded texts", "anchors": ["include/stdex/sgml.hpp: sgml2strcat; mapping.hpp: src2dst, dst2src"]}
{"id": "C68", "title": "SGML encoding is ASCII and hides what is asked to be hidden", "statement": "str2sgml writes ASCII only, and a character that its flags ask to encode does not occur in what it writes, apart from & and # of entities.", "quantifier": "all texts, all flags", "why_tests_cant": "unbounded texts", "anchors": ["include/stdex/sgml.hpp: str2sgmlcat"]}
{"id": "C69", "title": "SGML conversion to a fixed buffer stays inside the buffer", "statement": "sgml2strcat, sgml2strcpy, str2sgmlcat and str2sgmlcpy with a buffer and its size either leave the complete converted text with its terminator in the buffer and return its length, or throw; they never write outside of the buffer.", "quantifier": "all texts, buffers, sizes", "why_tests_cant": "unbounded texts; boundary of the buffer", "anchors": ["include/stdex/sgml.hpp: sgml2strcat, str2sgmlcat (buffer versions)"]}
{"id": "C70", "title": "Intervals of nested parsers", "statement": "After a successful match the intervals of the elements agree with the interval of the parser: those of a sequence follow one another without gaps; the hit offset of a branch names the first element that matches, whose interval is the branch's, and no other element has a valid interval; those of a permutation follow one another in the first order, by position, that matches; an iterated element has failed or ends where the iterations end.", "quantifier": "all texts, start positions, parser trees, previous states", "why_tests_cant": "unbounded trees", "anchors": ["include/stdex/parser.hpp: basic_sequence, basic_branch, basic_permutation, basic_iterations; interval, hit_offset"]}
{"id": "C71", "title": "Elementary parsers", "statement": "noop, any_cu, cu, space_cu, punct_cu, space_or_punct_cu, bol, eol, cu_set and string match exactly: nothing before the end of the text; one code unit of the kind named, or not of the kind when inverted; the empty string at the beginning or end of a line; a member of the set (the hit offset being its first position in the set); the string, up to case if asked. None reads beyond the terminator or the end.", "quantifier": "all texts, positions, flags, locales", "why_tests_cant": "unbounded texts", "anchors": ["include/stdex/parser.hpp: basic_noop, basic_any_cu, basic_cu, basic_space_cu, basic_punct_cu, basic_space_or_punct_cu, basic_bol, basic_eol, basic_cu_set, basic_string"]}
{"id": "C72", "title": "Parsers of SGML text", "statement": "At a position of an SGML text, sgml_any_cp takes an entity or a character; sgml_cp, sgml_space_cp, sgml_punct_cp, sgml_space_or_punct_cp and sgml_cp_set match, or do not when inverted, just when the text that the entity (if known) or character stands for is the one given, white space, punctuation, or occurs in the set; sgml_string matches just when a sequence of entities and characters stands for the string, up to case if asked. The interval ends behind the entity or character.", "quantifier": "all texts, positions, flags, locales", "why_tests_cant": "unbounded texts, all entities", "anchors": ["include/stdex/parser.hpp: basic_parser::next_sgml_cp, sgml_any_cp, sgml_cp, sgml_space_cp, sgml_punct_cp, sgml_space_or_punct_cp, sgml_cp_set, sgml_string"]}
{"id": "C73", "title": "Integers in text", "statement": "integer10 and integer16 match at a position just when a digit is there, take all digits that follow, and their value is the number written (modulo 2^64); integer10ts takes, besides, further groups of three digits behind equal separators when the first group has at most three digits, and reports the number of digits and whether separators were used. In particular the decimal numeral of every number below 2^64 is read back as that number.", "quantifier": "all texts, positions, digit parsers and separators", "why_tests_cant": "unbounded texts", "anchors": ["include/stdex/parser.hpp: basic_integer10, basic_integer16, basic_integer10ts"]}
{"id": "C74", "title": "Roman numerals", "statement": "Whenever roman_numeral matches, its value is the sum of its digits, those counted negatively that stand before a larger one, and every subtraction is a legal one (of a unit, I, X, C, … before the next one or two symbols, at most once); and every canonical numeral is matched as a whole with its value.", "quantifier": "all texts, all numbers (canonical numerals with any number of leading large digits)", "why_tests_cant": "unbounded texts and values", "anchors": ["include/stdex/parser.hpp: basic_roman_numeral"]}
{"id": "C75", "title": "Compound numerals", "statement": "fraction, score, signed_numeral, mixed_numeral, scientific_numeral and monetary_numeral match at a position just when their parts stand there in order, with the optional signs, blanks, decimals and exponent as described; the intervals of the parts are then those of the parts in the text, of the absent parts invalid, whatever an earlier match left behind; the value of a scientific numeral is the number that is written.", "quantifier": "all texts, positions, part parsers, states left by an earlier match", "why_tests_cant": "unbounded texts, histories of the parser object", "anchors": ["include/stdex/parser.hpp: basic_fraction, basic_score, basic_signed_numeral, basic_mixed_numeral, basic_scientific_numeral, basic_monetary_numeral"]}
{"id": "C76", "title": "Internet addresses in text", "statement": "ipv4_address matches just the dotted quadruples of numbers up to 255 (the longest such at the position) and ipv6_address just eight groups of hexadecimal digits below 2^16, or fewer with one :: for the missing ones, with an optional scope id; components and interval are those of the text, and value is the address in network byte order.", "quantifier": "all texts, positions, digit and separator parsers, states left by an earlier match", "why_tests_cant": "unbounded texts, histories of the parser object", "anchors": ["include/stdex/parser.hpp: basic_ipv4_address, basic_ipv6_address"]}
{"id": "C77", "title": "Bank account numbers and creditor references", "statement": "iban matches just an IBAN of a country of the list with the check digits and length required there, blanks between the characters allowed; creditor_reference just RF, two digits, and 1 to 21 letters and digits in groups of four; country, check digits, BBAN and reference (with leading zeros) are those of the text, independent of earlier matches, and is_valid tells whether the number formed as in ISO 7064 leaves the remainder 1 modulo 97. No array is overrun.", "quantifier": "all texts, positions, flags, blank parsers, states left by an earlier match", "why_tests_cant": "unbounded texts; all numbers of up to 68 digits", "anchors": ["include/stdex/parser.hpp: basic_iban, basic_creditor_reference"]}
{"id": "C78", "title": "Slovenian payment references: what matches, and is_valid", "statement": "basic_si_reference matches SI, two digits, optional blank and up to three groups of digits separated by '-'; model and the intervals of the parts are those of the text; model 99 takes no parts. is_valid tells whether the parts have the count and lengths that the model requires and the modulo 11 check digits of the groups of parts that the model checks are right. Otherwise nothing matches and the object is invalidated.", "quantifier": "every text, every position in it, every model and every sub-parser of blanks", "why_tests_cant": "100 models times all digit strings; the two-part check is wrong for one sum in eleven and the three-part check compares with an unrelated digit that agrees by chance", "anchors": ["include/stdex/parser.hpp: basic_si_reference, basic_si_reference_part, basic_si_reference_delimiter, check11"]}
{"id": "C79", "title": "Dates: the first allowed format that is written is matched, and only with a day that exists", "statement": "basic_date tries the formats dmy, mdy, ymd, ym, my, dm, md in this order, as far as the mask allows them; the first in which integers with the same separator twice (blanks around it allowed) and a day that exists in that month (in some year) are written is matched: format, day, month, year and the interval are set accordingly, integers that do not belong to the format are invalidated. If there is none, nothing matches and everything is invalid.", "quantifier": "every text, position, mask, and every parser of digits, separators and blanks that takes at least one code unit", "why_tests_cant": "the formats overlap; a unit test sees one text, not that an earlier format never shadows or leaks fields into a later one", "anchors": ["include/stdex/parser.hpp: basic_date::do_match, basic_date::is_valid, date_format_t"]}
{"id": "C80", "title": "Times and angles: parts are optional, in range, and matched as far as they are written", "statement": "basic_time matches hours, a separator and minutes below 60, then seconds below 60 after the same separator and milliseconds below 1000 as far as they are written; basic_angle matches degrees, minutes below 60 and seconds below 60, each with its separator and only if written, with a decimal part, and requires at least one of the three. Parts that are not matched are invalid; the interval ends with the last part.", "quantifier": "every text and position, every element parser, any of the optional elements missing", "why_tests_cant": "combinations of optional parts and boundary values", "anchors": ["include/stdex/parser.hpp: basic_time::do_match, basic_angle::do_match"]}
{"id": "C81", "title": "A JSON string is parsed to what it stands for", "statement": "basic_json_string matches exactly the quoted strings of RFC 8259 (section 7) from quote to quote, with value the text they stand for: unescaped characters as they are, the short escape sequences, and \\uXXXX as the character (for char: its UTF-8 encoding). A text written as a JSON string comes back unchanged. Anything else is no match and leaves value empty; the parser ends and reads nothing outside of the text.", "quantifier": "every text (terminated or limited by end), position, code unit type and set of unescaped characters", "why_tests_cant": "all strings, escape sequences and truncations", "anchors": ["include/stdex/parser.hpp: basic_json_string::do_match"]}
{"id": "C82", "title": "The longest DNS name is matched, and nothing but a DNS name", "statement": "basic_dns_name matches at a position iff a label starts there; the match is the longest name of at most 127 labels separated by the separator, where every label begins and ends with a letter or digit (or, with IDN, what the locale counts as alphanumeric) and has hyphens only inside; a trailing separator belongs to it only if absolute names are allowed. A text that is such a name is matched as a whole. It ends and reads nothing outside of the text.", "quantifier": "every text, position, locale, setting of IDN and absolute names, and elements whose separator is no label character", "why_tests_cant": "all names, hyphens and dots in all positions, truncated texts", "anchors": ["include/stdex/parser.hpp: basic_dns_domain_char::do_match, basic_dns_name::do_match"]}
{"id": "C83", "title": "URL characters and paths: split at the first ? and #", "statement": "basic_url_username_char, basic_url_password_char and basic_url_path_char accept exactly the unreserved characters, percent and delimiters of RFC 3986 their part may have; basic_url_path splits the longest run of path characters into path, query (after the first question mark before a number sign) and bookmark (after the first number sign), with the intervals of the parts, and does not match an empty run. It ends and reads nothing outside of the text.", "quantifier": "every text (terminated or limited by end), position and locale", "why_tests_cant": "all texts, with ? and # in all positions and repetitions", "anchors": ["include/stdex/parser.hpp: basic_url_username_char, basic_url_password_char, basic_url_path_char, basic_url_path::do_match"]}
{"id": "C84", "title": "URLs and e-mail addresses: the parts are those written", "statement": "basic_url matches exactly scheme://[user[:password]@]host[:port][path] for http and ftp, mailto:user@host, file://path and host[:port][path] without a scheme, tried in this order, and basic_email_address exactly user@host with IP addresses in brackets; the intervals reported for scheme, user, password, host, port and path are those of the text, one after another without overlap in the interval of the match; what is not present is invalid, and after a failure everything is.", "quantifier": "every text, position, and all element parsers (IP addresses, DNS names, ports, paths, ...)", "why_tests_cant": "all combinations of optional parts and partial matches", "anchors": ["include/stdex/parser.hpp: basic_url::do_match, basic_email_address::do_match"]}
{"id": "C85", "title": "The longest phone number is matched and normalized", "statement": "basic_phone_number (with both parentheses given) matches an optional plus sign and the longest sequence of digits, parentheses, separators and spaces that is a phone number: at least one digit outside of parentheses, at most one pair of parentheses of the same shape, separators only directly after digits outside of parentheses, spaces (never line breaks) only directly after digits or the right parenthesis, ending in a digit outside of parentheses or the right parenthesis. value is the matched text without separators and spaces. Anything else is no match and leaves value empty; it ends and reads nothing outside of the text.", "quantifier": "every text, position and element parsers no two of which match at the same place", "why_tests_cant": "all sequences of digits, parentheses and separators, incomplete parentheses at the end", "anchors": ["include/stdex/parser.hpp: basic_phone_number::do_match"]}
{"id": "C86", "title": "Emoticons: an emoticon that is there is found, with its parts", "statement": "basic_emoticon matches a whole emoticon, or an optional apex, eyes, an optional nose and a mouth repeated as often as it is written; it matches iff there is one, prefers the whole emoticon, then the one with a nose, reports the intervals of the parts and which mouth it is, and leaves all parts invalid otherwise.", "quantifier": "every text, position, and element parsers", "why_tests_cant": "combinations of optional parts, repetitions of mouths", "anchors": ["include/stdex/parser.hpp: basic_emoticon::do_match"]}
{"id": "C87", "title": "The longest chemical formula is matched", "statement": "basic_chemical_formula matches the longest sequence of elements (case-sensitive whatever the flags) and digits that begins with an element, and the sign after it; has_digits and has_charge tell whether there are digits and a sign; it does not match iff there is no element, and ends.", "quantifier": "every text, position, and elements that are no digits", "why_tests_cant": "all formulas and truncations", "anchors": ["include/stdex/parser.hpp: basic_chemical_formula::do_match"]}
{"id": "C88", "title": "HTTP tokens, quoted strings and values follow the protocol", "statement": "http_line_break matches CRLF or LF; http_space the optional line break and the white space after it; http_token the longest run of characters that are no controls and no separators; http_quoted_string the shortest text between quotes in which characters after a backslash are no quotes, so a string that was escaped and quoted is read back; http_value a quoted string, or else a token; what does not match leaves all intervals empty.", "quantifier": "every text, position and length limit", "why_tests_cant": "all texts, truncations and escapes", "anchors": ["include/stdex/parser.hpp: http_line_break,include/stdex/parser.hpp: http_space,include/stdex/parser.hpp: http_token,include/stdex/parser.hpp: http_quoted_string,include/stdex/parser.hpp: http_value"]}
{"id": "C89", "title": "HTTP media types and their parameters are matched whole", "statement": "http_parameter matches name=value; http_any_type matches */* or *; http_media_range matches type/subtype; http_media_type the range and all parameters that follow it after semicolons, and ends with the last one; white space is allowed between the parts; each part's interval is exactly where it stands.", "quantifier": "every text, position, length limit, and number of parameters", "why_tests_cant": "all texts and numbers of parameters", "anchors": ["include/stdex/parser.hpp: http_parameter,include/stdex/parser.hpp: http_any_type,include/stdex/parser.hpp: http_media_range,include/stdex/parser.hpp: http_media_type"]}
{"id": "C90", "title": "HTTP cookies are matched with all their parameters", "statement": "http_cookie matches name=value (a token or quoted string) and all $name=value parameters that follow after semicolons, in order, and ends with the last one; it does not match iff there is no name=value; there is just one such reading.", "quantifier": "every text, position, length limit, and number of parameters", "why_tests_cant": "all texts and numbers of parameters", "anchors": ["include/stdex/parser.hpp: http_cookie,include/stdex/parser.hpp: http_cookie_parameter"]}
{"id": "C91", "title": "HTTP URLs are matched with server, port, path segments and parameters", "statement": "http_url matches an absolute http:// URL (in any case) or an absolute path: the longest server, the port (digits that fit in 16 bits; 80 if it is missing), every segment of the path, so that the segments joined by slashes are the path, and every name or name=value parameter after the question mark; it does not match iff no such URL is there; the reading is unique, and it stays within the text.", "quantifier": "every text, position and length limit", "why_tests_cant": "all URLs and truncations", "anchors": ["include/stdex/parser.hpp: http_url,include/stdex/parser.hpp: http_url_server,include/stdex/parser.hpp: http_url_port,include/stdex/parser.hpp: http_url_path,include/stdex/parser.hpp: http_url_parameter"]}
{"id": "C92", "title": "HTTP languages, weights and weighted values are matched whole", "statement": "http_language matches all letters-only components with dashes between them and ends with the last one; http_weight matches digits with an optional fraction and its value is that number; http_weighted_value matches an asterisk or a value and the ;q= factor after it; without a factor it is 1 and the match ends with the value.", "quantifier": "every text, position, length limit, value parser, and state of the parser before", "why_tests_cant": "all texts, numbers of digits, and states left by earlier matches", "anchors": ["include/stdex/parser.hpp: http_language,include/stdex/parser.hpp: http_weight,include/stdex/parser.hpp: http_asterisk,include/stdex/parser.hpp: http_weighted_value"]}
{"id": "C93", "title": "Collections of HTTP values contain every element by falling factor", "statement": "http_value_collection::insert reads every element up to the first place where none is, each once; http_weighted_collection holds them from the largest factor to the smallest one, and elements with the same factor in the order of the text.", "quantifier": "every text, element parser, and number of elements", "why_tests_cant": "all lists and orders of factors", "anchors": ["include/stdex/parser.hpp: http_value_collection::insert,include/stdex/parser.hpp: http_factor_more"]}
{"id": "C94", "title": "HTTP agents, protocols and request lines are matched whole", "statement": "http_agent matches everything up to white space and splits it at the first slash; http_protocol matches type/major or type/major.minor and its version is major * 256 + minor; http_request matches verb, URL, and protocol of one line and consumes the line with its line break; a line without protocol is HTTP 0.9.", "quantifier": "every text, position, length limit, URL parser, and state of the parser before", "why_tests_cant": "all texts and places of line breaks and white space", "anchors": ["include/stdex/parser.hpp: http_agent,include/stdex/parser.hpp: http_protocol,include/stdex/parser.hpp: http_request"]}
{"id": "C95", "title": "HTTP headers are matched with their continuation lines", "statement": "http_header matches a name, a colon and a value up to the first line break after which the next line does not begin with white space, or the end of text; the value is that text without white space around it; nothing else is matched as a header.", "quantifier": "every text, position and length limit", "why_tests_cant": "all texts, numbers of continuation lines and places of line breaks", "anchors": ["include/stdex/parser.hpp: http_header"]}
{"id": "C96", "title": "CSS comments, strings, URIs and imports are matched whole", "statement": "css_comment matches from /* to the first */; css_string from a quote to the first quote of the same kind that has no backslash before it; css_uri matches url(...) with or without quotes, and its content has no white space around it; css_import matches @import and a string; css_cdo and css_cdc match <!-- and -->; and where the text has no such thing nothing is matched.", "quantifier": "every text, position, length limit and locale", "why_tests_cant": "all texts; quotes, backslashes and delimiters anywhere, also at the limit", "anchors": ["include/stdex/parser.hpp: css_comment,include/stdex/parser.hpp: css_cdo,include/stdex/parser.hpp: css_cdc,include/stdex/parser.hpp: css_string,include/stdex/parser.hpp: css_uri,include/stdex/parser.hpp: css_import"]}
{"id": "C97", "title": "MIME types are split into type, subtype and charset", "statement": "mime_type matches type/subtype, both not empty and without slash, semicolon and white space, and the charset after a semicolon, with or without quotes; the charset is invalid if there is none.", "quantifier": "every text, position, length limit and locale", "why_tests_cant": "all texts; truncated literals and quotes at the limit", "anchors": ["include/stdex/parser.hpp: mime_type"]}
{"id": "C98", "title": "HTML identifiers, values and conditions are matched whole", "statement": "html_ident matches up to >, =, /> or white space; html_value matches a value in quotes, or up to >, /> or white space, and fails only for a quote that is not closed; html_declaration_condition_start matches <![condition[, where the condition has no white space around it, and html_declaration_condition_end matches ]]>.", "quantifier": "every text, position, length limit and locale", "why_tests_cant": "all texts, also truncated anywhere", "anchors": ["include/stdex/parser.hpp: html_ident,include/stdex/parser.hpp: html_value,include/stdex/parser.hpp: html_declaration_condition_start,include/stdex/parser.hpp: html_declaration_condition_end"]}
{"id": "C99", "title": "HTML tags are matched whole, with their attributes in order", "statement": "html_tag reads comments up to the first -->, instructions up to the first >, and tags with all attributes up to > or /> (!> in declarations); what it reports lies inside of the tag, attributes are in order and do not overlap, and the match ends with >; it comes to an end for every text.", "quantifier": "every text, position, length limit and locale", "why_tests_cant": "all texts, numbers of attributes, unclosed quotes and delimiters", "anchors": ["include/stdex/parser.hpp: html_tag"]}
{"id": "C100", "title": "HTML-escaped text is inert and decodes to the source", "statement": "For every text (up to its length or terminator) html::escape appends text that has no angle bracket, quote, no-break space or bare ampersand, html::escape_min text that has no angle bracket, no-break space or bare ampersand; the library's own SGML decoder turns either back into the source; text without special characters is appended as it is; escaping character by character is escaping the string.", "quantifier": "every source buffer, length limit and destination; char (signed and unsigned) and wchar_t", "why_tests_cant": "the set of texts is infinite, and inertness must hold for every one of them", "anchors": ["include/stdex/html.hpp: escape, escape_min; include/stdex/sgml.hpp: sgml2strcat"]}
{"id": "C101", "title": "URL escaping loses nothing", "statement": "For every text url_escape writes letters, digits and a few marks as they are and every other octet as % with two upper-case hexadecimal digits; url_unescape of that, whatever follows in memory, gives the text back; url_unescape of any text replaces % with two hexadecimal digits by the octet, + by a space, and copies everything else.", "quantifier": "every source buffer, length limit and destination; char signed or unsigned", "why_tests_cant": "the set of texts is infinite; bad escapes can stand anywhere, and at the end", "anchors": ["include/stdex/html.hpp: url_escape, url_unescape"]}
{"id": "C102", "title": "CSS escaping loses nothing", "statement": "For every text css_escape writes text that can stand in a quoted CSS string (quotes and backslashes only behind a backslash, no line breaks or tabs), and css_unescape of that, whatever follows in memory, gives the text back; css_unescape of any text that does not end in a lone backslash returns, and gives the text that its escapes stand for (control characters, joined lines, numbers of up to six hexadecimal digits, other characters).", "quantifier": "every source buffer, length limit and destination; any character type and wchar_t of any width", "why_tests_cant": "the set of texts is infinite; escapes can stand anywhere, and at the end", "anchors": ["include/stdex/html.hpp: css_escape, css_unescape"]}
{"id": "C103", "title": "Element names are recognised", "statement": "element_code of a name is the element of HTML that is spelled like that, in upper, lower or mixed case, and unknown for every other name; every element of HTML is recognised by its name.", "quantifier": "every name in every buffer and length limit; char signed or unsigned and wider character types whose characters fit in char", "why_tests_cant": "the set of names is infinite, and a binary search that misses one entry or stops one early is wrong only for some", "anchors": ["include/stdex/html.hpp: element::element_code, element_t"]}
{"id": "C104", "title": "Elements nest as HTML says", "statement": "element_traits say which elements have no end tag, which may leave it out, which are running text, which are blocks; an element whose end tag may be left out never contains itself; one without an end tag contains nothing known (embed aside); list items, table parts, options and document parts are contained only in their proper parents; running text contains no blocks; is_uri and is_localizable hold for exactly the attributes that are URIs or text, in any case.", "quantifier": "every element or pair of elements; every attribute name in every buffer", "why_tests_cant": "attribute names are infinitely many; the relation of elements must hold for all pairs", "anchors": ["include/stdex/html.hpp: element_traits"]}
{"id": "C105", "title": "The sequences of a document follow its source", "statement": "Whatever was done to a document (append in pieces, finalize, clear, exceptions caught), its sequences are in the order of the source, do not overlap, lie inside of it and are not empty (marked sections aside); every sequence that is not text is a tag of the source, with the kind, the name, the attributes and the element of the tag; and after finalize the sequences spell the source.", "quantifier": "every text of every length, every division into pieces and every history of the document", "why_tests_cant": "It must hold for all texts and all histories; tests use a few pages.", "anchors": ["include/stdex/html.hpp: document::append, document::finalize, document::assign, document::clear"]}
{"id": "C106", "title": "The tree of a document is a tree", "statement": "Whatever was done to a document: the parent of a sequence is an earlier start tag; an element may contain its children; only start tags have ends, and an end is the element itself, its end tag or an element that it may not contain; only end tags have starts, which are start tags of the same element with the same parent that end there; what stands between the start and the end of an element is exactly what has it as an ancestor; and a start tag without an end is inside of an ended one or holds everything that follows.", "quantifier": "every text and every history of the document", "why_tests_cant": "Nesting must hold for every text, also of mismatched tags; tests use a few.", "anchors": ["include/stdex/html.hpp: document::append, document::finalize, document::assign, document::clear"]}
{"id": "C107", "title": "End tags end the innermost element", "statement": "In a document that was appended to, an end tag ends the last element of its name that was not over: if it has no start, all earlier start tags of its name are over, and otherwise those after its start are.", "quantifier": "every text and every division into pieces", "why_tests_cant": "It must hold for all texts with mismatched tags.", "anchors": ["include/stdex/html.hpp: document::append, document::finalize, document::assign, document::clear"]}
{"id": "C108", "title": "Scripts and styles hold only text, and text holds no tags", "statement": "Inside of code, comment, script and style elements there are only text and marked sections; in text outside of these no tag begins.", "quantifier": "every text and every history of the document", "why_tests_cant": "It must hold for every text.", "anchors": ["include/stdex/html.hpp: document::append, document::finalize, document::assign, document::clear"]}
{"id": "C109", "title": "Parsing of a document comes to an end", "statement": "Appending any text to a document comes to an end without undefined behaviour: it succeeds, or throws if an entity is not defined, which cannot be if there is no percent sign.", "quantifier": "every document that was appended to, and every text", "why_tests_cant": "Termination and the absence of invalid reads must hold for every text.", "anchors": ["include/stdex/html.hpp: document::append, document::finalize, document::assign, document::clear, document::replace_entities"]}
{"id": "C110", "title": "Marked sections", "statement": "What stands in a CDATA or RCDATA section is exactly one sequence in the open element, whatever markup it holds; what stands in an IGNORE section leaves no trace.", "quantifier": "every content of the section and every state of the document", "why_tests_cant": "It must hold for all contents and all states.", "anchors": ["include/stdex/html.hpp: document::append"]}
{"id": "C111", "title": "Appending nothing, and assigning", "statement": "Appending nothing to a document changes nothing; assign makes what append and finalize make of a new document, whatever the document held.", "quantifier": "every document and every text", "why_tests_cant": "It must hold for every history.", "anchors": ["include/stdex/html.hpp: document::append, document::finalize, document::assign, document::clear"]}
{"id": "C112", "title": "Character set of an HTML document", "statement": "The character set of a document is the one its first meta element to name one names: one with http-equiv=\"content-type\", whose last content attribute is a MIME type with a charset; if no meta element names one, there is none.", "quantifier": "every text, however it is split into appended parts", "why_tests_cant": "It must hold for all texts and histories.", "anchors": ["include/stdex/html.hpp: document::append"]}
{"id": "C113", "title": "Entities of an HTML document", "statement": "The entities of a document are those its <!ENTITY % name value> declare, in order, with entities declared before expanded in the value; expanding a text replaces each %name; with the value of the first entity of that name, and throws exactly if there is an undefined one.", "quantifier": "every text and every history of appending", "why_tests_cant": "It must hold for all texts and histories.", "anchors": ["include/stdex/html.hpp: document::append, document::replace_entities"]}
{"id": "C114", "title": "Token tags are unambiguous", "statement": "A token's tag in a text is read back as that very token and ends where the tag ends; tags of different tokens differ; a place in a text that does not begin with the mark is no tag; reading never touches memory past the terminator.", "quantifier": "every token address of the machine's word size, every text around the tag, every position", "why_tests_cant": "Any 64-bit address and any text before and after; only a proof covers them all.", "anchors": ["include/stdex/html.hpp: token::append_tag, token::parse_tag"]}
{"id": "C115", "title": "Parsing a document to tokens and linking them writes the document again", "statement": "Whatever the document, the parser turns it into tokens without undefined behaviour and linking the root token writes the document with only these changes: texts (and attributes meant for the reader) are decoded and minimally escaped, URLs in attributes are decoded and escaped, URLs in style sheets are unescaped and escaped; content of code, script and the like, comments, declarations and all other markup is kept verbatim.", "quantifier": "every document, every way it was built, every placement of tokens in memory", "why_tests_cant": "The relation between tokens and source must hold for all documents and nestings.", "anchors": ["include/stdex/html.hpp: parser::parse, parser::link, parser::parse_css, parser::append_token"]}
{"id": "C116", "title": "Switching active tokens keeps tags nested", "statement": "Ending the active tokens that are not wanted and starting those that are leaves exactly the wanted list active; only the innermost open element is ever closed, elements common to both lists stay open, and what is written are the start tags and new </name> end tags in that order.", "quantifier": "every list of active tokens, every wanted list, every source text so far", "why_tests_cant": "Any pair of lists of any depth.", "anchors": ["include/stdex/html.hpp: parser::start_tokens, parser::end_tokens"]}
{"id": "C117", "title": "Inserted tokens go to their words, nested", "statement": "Inserting the tokens of a word writes exactly the tokens anchored there, in order, each with its own elements open; tokens of other words stay in the list in their order; what is written is nested.", "quantifier": "every list of inserted tokens, every word index, both sides of a word", "why_tests_cant": "Any list and any interleaving of anchors.", "anchors": ["include/stdex/html.hpp: parser::append_inserted_tokens"]}
{"id": "C118", "title": "Merging token lists gives their union", "statement": "After merge(a, b), the list a has exactly the tokens of both lists.", "quantifier": "every two lists of tokens", "why_tests_cant": "A statement on all pairs of lists.", "anchors": ["include/stdex/html.hpp: parser::merge"]}
{"id": "C119", "title": "Tokens tell what they stand for and where it is", "statement": "Every sequence of a parsed document outside of verbatim elements is in the text of a token at the place the token's map gives for it; a tag's token tells its sequence, whether it starts or ends an element, the element's name and end; a group's content is a token that tells whether it is a title or bullets; nonblank text sets the text flag.", "quantifier": "every document, every sequence of it, every placement of tokens", "why_tests_cant": "Must hold for every document and depth of nesting.", "anchors": ["include/stdex/html.hpp: parser::parse, token::mapping, starting_token, text_type_flag_t"]}
{"id": "C120", "title": "Language names and codes", "statement": "langid_from_rfc1766 gives for any terminated name the code of the first name of its table that is the same up to case and up to which punctuation separates its parts, langid_unknown if there is none, and reads nothing past the terminator; rfc1766_from_langid gives the name of the code, or the fallback; the name of a name's code is that name; the code of a code's name is that code (except for 34 codes, whose names stand for other codes); primary_langid and sub_langid split any code in two parts that make it up.", "quantifier": "every name, every code, char signed or not", "why_tests_cant": "Must hold for every string and every 16-bit code.", "anchors": ["include/stdex/langid.hpp: primary_langid, sub_langid, langid_from_rfc1766, rfc1766_from_langid"]}
{"id": "C121", "title": "Values in a memory file", "statement": "Numbers and strings written to a memory_file with << are, from the cursor on, the bytes any other stream would write, and >> gives them back; a number or string that is not all there sets eof and moves to the end (a number is then 0); in a bad state nothing is read or written; get and set access the number at an offset and nothing else.", "quantifier": "every file, cursor, list of values, CHECK_STREAM_STATE on and off", "why_tests_cant": "Must hold for every sequence of values and every contents of the file.", "anchors": ["include/stdex/stream.hpp: memory_file::read_data, read_str, write_data, write_str, get, set"]}
{"id": "C122", "title": "Streams copied into a memory file, loading and saving", "statement": "memory_file::write_stream puts at the cursor what the source has, up to the amount asked for, returns how many bytes, and moves the cursor behind them; when memory runs out, what was copied is the beginning of it; load makes the file the contents of the loaded file with the cursor at the beginning, or reports failure; save writes all bytes of the file and nothing else; no access leaves the block.", "quantifier": "every source (any sizes of reads), every file and cursor, every pattern of failing allocations", "why_tests_cant": "Must hold for every way the source delivers its bytes and every allocation failure.", "anchors": ["include/stdex/stream.hpp: memory_file::write_stream, load, save, reserve"]}
{"id": "C123", "title": "WAV chunks: what is written is what is read", "statement": "The header, format (with its extra bytes), data, silence, cue, labeled text, label and note chunks of a WAV file, written with << and read back with >>, give equal values, and the bytes in between are those of the RIFF format (identifier, little-endian size, fields, even padding), for all field values that fit their types and texts without a zero.", "quantifier": "all values of every chunk type, all contents and lengths, all preceding and following bytes, all ways the file splits its reads", "why_tests_cant": "Field values, lengths and contents are unbounded, and odd lengths, empty texts and missing extra bytes take different paths.", "anchors": ["include/stdex/wav.hpp: header, format, data, slnt, cue_vector, ltxt, label, note"]}
{"id": "C124", "title": "WAV cues with their texts survive being written and read", "statement": "Cues written with << as a cue chunk and an associated data list are what read_cues gives for a block that contains them anywhere among other chunks: all of them, each with its own texts, ordered by identifier, and the file is left where it was.", "quantifier": "all lists of cues with different identifiers, all other chunks before and after, all ways the file splits its reads, every sort and binary search that keeps its contract", "why_tests_cant": "The number and order of cues, the number and contents of texts and of foreign chunks are unbounded.", "anchors": ["include/stdex/wav.hpp: operator<< of cue_ex_vector, read_cues"]}
{"id": "C125", "title": "WAV find_first and find_content find the first chunk of a type", "statement": "find_first stops right behind the type of the first chunk that has the wanted identifier and type, passing over all chunks with another identifier or type, and tells where that chunk ends; if there is none before the end of the block, it returns false at the end of the block. find_content finds the RIFF chunk of type WAVE.", "quantifier": "all files of chunks, all positions and numbers of other chunks", "why_tests_cant": "The number and the sizes of the chunks passed over are unbounded; odd sizes are padded.", "anchors": ["include/stdex/wav.hpp: find_first, find_content"]}
{"id": "C126", "title": "WAV remove_cues removes the cues and nothing else", "statement": "remove_cues copies to the output all chunks of the input but those of the cues and their texts.", "quantifier": "all files of chunks", "why_tests_cant": "Any number and order of chunks of any size.", "anchors": ["include/stdex/wav.hpp: remove_cues"]}
{"id": "C127", "title": "OS file and socket streams loop over partial transfers correctly", "statement": "Reading from a system handle or socket returns exactly the bytes the successive OS reads delivered, in order, never more than asked for; with a source that delivers its bytes in any pieces, a read of n returns the first n bytes (or all that remain, then end-of-file). Writing hands the OS exactly a prefix of the data, in order, once each; state ok means all of it was accepted. Both loops end, the write one when the OS always accepts at least one byte.", "quantifier": "all OS behaviours (any partial transfer, error or end at any call), all data and all sizes", "why_tests_cant": "The OS may split, shorten or fail any transfer: the number of schedules is unbounded.", "anchors": ["include/stdex/stream.hpp: basic_sys::read, basic_sys::write, socket::read, socket::write"]}
{"id": "C128", "title": "diag_file mirrors every call and throws exactly on a difference", "statement": "A history of calls on a diag_file over files f1..fn returns what f1 alone would have returned, and throws exactly when, at some call, another file alone would have returned something different (result, data read, or state).", "quantifier": "all files, all histories of calls", "why_tests_cant": "The files are arbitrary and the histories unbounded.", "anchors": ["include/stdex/stream.hpp: diag_file"]}
{"id": "C129", "title": "Names of character sets are recognised regardless of case", "statement": "charset_from_name gives the character set that has the given name, whatever the case of its letters, and the system set for any other name; the encoding an encoder uses for a set is a name of that same set.", "quantifier": "all terminated names", "why_tests_cant": "Names are arbitrary strings; the ordered map is only right if its comparison is a strict weak order for all of them.", "anchors": ["include/stdex/unicode.hpp: charset_from_name, charset_encoder::to_encoding"]}
{"id": "C130", "title": "Converting a text between character sets converts all of it", "statement": "charset_encoder::strcat appends to the destination the whole conversion of the text (up to its end or count), in however many rounds of its buffer; it throws exactly if the text is not valid. Converting parts one after another gives the conversion of the whole; str2wstr and wstr2str are inverse where the character sets are.", "quantifier": "all texts, all converters, all positions where the buffer fills up", "why_tests_cant": "Texts of any length and any number of rounds of the conversion buffer.", "anchors": ["include/stdex/unicode.hpp: charset_encoder::strcat, strcpy, convert, str2wstr, wstr2str"]}
{"id": "C131", "title": "Compressed streams lose nothing", "statement": "What is written to a zlib_writer in any pieces arrives, once it is destroyed, at its sink as one compressed stream of all the pieces; what is read from a zlib_reader, in any pieces, from a source that delivers a compressed stream in any pieces, is exactly what was compressed, every read getting all that is asked for or all there is, with the end reported at the end only. A write that takes less than it is given reports the state of the sink.", "quantifier": "all data, all ways to cut it in writes, reads, blocks and deliveries, all compressors that keep the contract of zlib", "why_tests_cant": "The number of ways blocks fill up against the pieces of data is unbounded.", "anchors": ["include/stdex/zlib.hpp: zlib_writer, zlib_reader"]}
{"id": "C132", "title": "Objects that own a system handle neither leak nor share nor doubly close it", "statement": "In every history of making, copying, assigning, moving, closing and destroying objects that own a system handle (file descriptors, sockets), every open handle has exactly one owner, every object's handle is open, no handle is closed that is not open, other objects' handles are untouched, and once all objects are destroyed no handle is open; except after an assignment or close that throws once the old handle was closed (a defect: the object keeps the closed handle and closes it again).", "quantifier": "all histories of operations on any number of objects, all handle numbers the system returns, all failures of duplication", "why_tests_cant": "a leak or a double close depends on the whole history and on handle numbers reused by the system; tests see a few short histories", "anchors": ["include/stdex/system.hpp: basic_sys_object, sys_object_traits; include/stdex/socket.hpp: socket_traits"]}
{"id": "C133", "title": "Formatting into a string appends the whole text, of any length", "statement": "appendf, vappendf, sprintf and vsprintf append (or set) the whole formatted text of any length and return its length; errors of formatting are always reported by their exception; whatever happens the string begins with what it had. strcatftime, strftime and timestamp to_str do the same with the whole text of a date. True for wide characters and for dates whose text is not empty; for narrow characters only below 1024 characters: a text of exactly 1024 loses its last character to a NUL and a longer one is refused (defects); a date with an empty text takes memory until there is none (defect).", "quantifier": "all texts, lengths, prior contents of the string, prior values of errno, all errors of formatting, all contents the library leaves in the buffer", "why_tests_cant": "the text may have any length around every doubling of the buffer; tests try one or two short ones", "anchors": ["include/stdex/string.hpp: vappendf, appendf, vsprintf, sprintf, strcatftime, strftime; include/stdex/chrono.hpp: to_str"]}
{"id": "C134", "title": "Changing the case of a text in place changes its letters and nothing else", "statement": "strlwr maps every upper-case ASCII letter before the terminator and within count to its lower-case counterpart, and with a locale maps every character as the locale's ctype does; characters from the terminator or count on, and all others, are unchanged and nothing outside is touched; the versions for strings map every character. strupr does the same to upper case only with a locale; without, it turns lower-case letters into the all-ones character (defect).", "quantifier": "all texts, counts, character types, locales", "why_tests_cant": "texts and counts are unbounded; the end of the text may be a terminator, the count or both", "anchors": ["include/stdex/string.hpp: strlwr, strupr"]}
{"id": "C135", "title": "Handing the pointer of a unique_ptr to a function neither leaks nor frees twice", "statement": "In every history of making, resetting and destroying unique_ptr owners, taking get_ptr references to them, moving references, letting functions replace the pointer through them, and destroying references (before their owners), every resource has exactly one holder, nothing is freed that is not allocated, and once all are gone nothing is allocated; after a function stored a resource through get_ptr(owner), the owner has it and its previous one is freed. Memory of the sanitizing allocator is zero in every byte when given back, and no other byte is touched.", "quantifier": "all histories, any number of owners and references, several references to one owner, all memory contents and sizes", "why_tests_cant": "ownership depends on the order in which references die; tests cover one order", "anchors": ["include/stdex/memory.hpp: ref_unique_ptr, get_ptr, sanitizing_allocator, sanitizing_blob"]}
{"id": "C136", "title": "Files on disk behave as files", "statement": "A file opened with any combination of modes is opened, created or truncated exactly as the documentation of the mode says, or the opening fails and leaves every file as it was; reading gives the bytes at the position (all that were asked for or all that there are, in however small pieces the system transfers them) and reports the end only at the end; writing replaces exactly the bytes at the position, extends the file and fills a gap with zeros; no other file changes; what was written is read back; seek, tell, size and truncate do what they say and leave the position; locking and unlocking say whether they did.", "quantifier": "every file system, file, mode, position, data, and every series of partial or failing transfers of the system", "why_tests_cant": "the system may transfer any part at any call; modes, sizes and positions are unbounded", "anchors": ["include/stdex/stream.hpp: file::open, seek, tell, lock, unlock, size, truncate, set_mtime, mtime; basic_sys::read, write; basic_file::read_remainder"]}
{"id": "C137", "title": "Memory files are saved and loaded exactly", "statement": "Saving a memory file under any name and mode leaves exactly its bytes in the file on disk (appended where so opened) and every other file as it was, or reports failure; loading a file gives exactly its bytes with the position at the beginning; what was saved is loaded back, in whatever pieces the system transfers.", "quantifier": "every memory file, disk, name, mode, allocation outcome and series of partial or failing transfers", "why_tests_cant": "sizes, contents, modes and splits of transfers are unbounded", "anchors": ["include/stdex/stream.hpp: memory_file::save, memory_file::load, memory_file::write_stream, file::open, file::truncate"]}
{"id": "C138", "title": "Memory files own their memory", "statement": "Whatever memory files a program makes, copies, moves, assigns, grows, closes and destroys, with or without memory to be had: no memory is lost, freed twice or while in use, memory of the user is never freed unless it was handed over, and every file fits into its block so that no copy reads or writes outside of one.", "quantifier": "every sequence of operations on any number of memory files, every outcome of every allocation", "why_tests_cant": "any number of objects, operations and failing allocations in any order", "anchors": ["include/stdex/stream.hpp: memory_file constructors, operator=, destructor, reserve, close"]}
{"id": "C139", "title": "Hash values pass through streams", "statement": "Any sequence of MD2/MD5/SHA-1/SHA-256 values written to a stream with << is read back with >> in order and unchanged, in whatever pieces the stream delivers the bytes; where the stream ends within a value the stream's state is end-of-file and the missing bytes keep their old contents; on a stream not in the ok state >> gives a zero value and << writes nothing.", "quantifier": "all sequences of values of any size, all streams that deliver their bytes in pieces of any sizes, all earlier contents of the variable", "why_tests_cant": "The split of the data over read calls and the number of values are unbounded", "anchors": ["include/stdex/hash.hpp: operator>>(basic&, md2_t&), operator<<(basic&, const md2_t&), the same of sha_t and sha256_t; include/stdex/stream.hpp: read_array, write_array"]}
{"id": "C140", "title": "A cache over a failing file loses nothing it accepted", "statement": "However writing to the file below a cache fails or is cut short, at any call: reads give bytes of the file as all calls so far said they wrote it; a write says how many bytes it took and is ok exactly if it took all; when flush() says ok, close() does not throw, the destructor does not throw, or cached_file::open() succeeds in leaving the old file, then the file has exactly the bytes the calls said were written; a failed flush, close or open keeps them, so that a later one that works brings them to the file.", "quantifier": "all cache sizes, contents, histories of reads, writes, seeks, truncations and flushes, and all patterns of failing and short writes", "why_tests_cant": "The points at which the system may fail are unbounded, and each combines with any state of the block", "anchors": ["include/stdex/stream.hpp: cache::read, write, flush, close, ~cache, flush_cache, invalidate_cache, write_cache, load_cache; cached_file::open"]}
{"id": "C141", "title": "SGML and UTF-16 text", "statement": "Text in UTF-16 is encoded to SGML as the same text in UTF-32 is: glyph by glyph of its characters, where a surrogate pair is one character and a surrogate without its other half is written by number; the result is ASCII and free of the characters asked to be encoded. Decoding SGML to UTF-16 gives the UTF-16 form of what decoding to UTF-32 gives, with the map of offsets in units. So decoding the encoding gives back the units, even of ill-formed text. Exceptions: the texts that are lost in UTF-32, too (C60); and numbers beyond Unicode are decoded to other characters.", "quantifier": "every UTF-16 text with any count, every set of flags, every SGML source", "why_tests_cant": "texts are unbounded, and the 16-bit variant is not what tests on Linux use", "anchors": ["include/stdex/sgml.hpp: utf32_to_wstr, chr2sgml, wstr_to_utf32, str2sgmlcat, sgml2strcat"]}
{"id": "C142", "title": "Records in streams that cannot seek", "statement": "Written to any stdex stream that takes what it is given, a record arrives as id, size, data and padding. Read from any stdex stream, however it splits its data, the data's operator sees exactly the record's data and then the end of stream, and afterwards the stream is behind the record and its padding whatever the operator did read; ignore() passes over a record the same way, and never says true for a record that is cut off. So any sequence of records written to a stream is read from it as the same sequence. A std::istream is left behind the record only if the data's operator knows by itself where the data ends; nothing keeps it from reading the padding and the records that follow.", "quantifier": "all record ids, sizes, alignments, data, data operators, and all ways a stream splits its data", "why_tests_cant": "streams and data operators are the user's own; sizes and splits are unbounded", "anchors": ["include/stdex/idrec.hpp: ignore(basic&), record::operator <<(basic&), record::operator >>(basic&), record::operator >>(std::istream&)"]}
{"id": "C143", "title": "Comparison by locale and floating-point numbers see exactly the text", "statement": "strcoll and strncoll compare exactly the two texts - up to the zero and the count - by the locale's collation; strtod gives the number the C library finds in exactly the text, never looks behind the count, and reports an end inside the text. Exception: strncoll does not stop at the zero; it reads to the count, and compares what is behind the zero as well.", "quantifier": "all buffers, counts, locales (collations) and behaviours of the C library's function", "why_tests_cant": "buffers are unbounded, and reading beyond a text shows only with the memory that follows", "anchors": ["include/stdex/string.hpp: strcoll, strncoll, strtod"]}
{"id": "C144", "title": "Parsing SGML is parsing the text it stands for", "statement": "Where every entity of an SGML text stands for one character, the sgml_ parsers built from sgml_cp, sgml_string, sgml_cp_set and the URL, DNS and user-information character parsers with the combinators (sequence, branch, permutation, iterations), the IPv4 and IPv6 addresses, URLs and e-mail addresses match from a piece of the SGML text exactly if their wide-character counterparts match from the corresponding character of the decoded text, and every interval reported in the SGML text is the span of pieces that encodes the interval reported in the decoded text. (search is excluded: it starts inside entities.)", "quantifier": "Every SGML text whose entities each stand for one character, every start, every tree of parsers, every flag and character classification", "why_tests_cant": "The texts, the ways to write each character as an entity, and the parser trees are unbounded; tests sample a few spellings", "anchors": ["include/stdex/parser.hpp: sgml_cp, sgml_string, sgml_cp_set, sgml_url, sgml_dns_name, sgml_dns_domain_char, sgml_url_username_char, sgml_url_password_char, sgml_url_path_char, sgml_ipv4_address, sgml_ipv6_address, sgml_email_address, basic_sequence, basic_branch, basic_permutation, basic_iterations"]}
{"id": "C145", "title": "Numbers, dates and phone numbers in SGML text", "statement": "Where every entity of an SGML text stands for one character, sgml_integer10, sgml_integer16, sgml_roman_numeral, sgml_fraction, sgml_score, sgml_signed_numeral, sgml_mixed_numeral, sgml_monetary_numeral, sgml_scientific_numeral, sgml_integer10ts, sgml_date, sgml_time, sgml_angle, sgml_emoticon, sgml_chemical_formula, sgml_phone_number and sgml_iban match exactly where their wide counterparts match in the decoded text, with the same values and with the intervals of the pieces that encode the intervals in the decoded text.", "quantifier": "Every SGML text whose entities each stand for one character, every start, all elements that correspond on the two texts", "why_tests_cant": "The ways to write characters as entities are unbounded; the numbers that differ (decimals or groups as entities) are not those tests sample", "anchors": ["include/stdex/parser.hpp: basic_integer10ts, basic_roman_numeral, basic_fraction, basic_score, basic_signed_numeral, basic_mixed_numeral, basic_scientific_numeral, basic_monetary_numeral, basic_date, basic_time, basic_angle, basic_emoticon, basic_chemical_formula, basic_phone_number, basic_iban"]}
{"id": "C146", "title": "Filters on top of each other lose and reorder nothing", "statement": "Any number of converters, buffers, limiters and hash filters, stacked in any order and with any sizes over a stream: reading through the stack delivers exactly the stream's contents as far as the read limits let them through, in order, each byte once, with the end reported exactly at the end; writing through it, in any pieces that the write limits have room for, is accepted completely, and after a flush everything has arrived at the stream at the bottom, once and in order; and every hash filter, at whatever height, has then seen exactly that data, so that the digests on the writing and on the reading side agree.", "quantifier": "all lists of filters with all their parameters, all contents, all ways the bottom stream splits its data, all read and write sizes", "why_tests_cant": "The number of stackings, buffer sizes, limits and splits is unbounded; a test fixes one stack.", "anchors": ["include/stdex/stream.hpp: converter, buffer, limiter; include/stdex/hash.hpp: stream_hasher"]}
{"id": "C147", "title": "Progress indicators nested to any depth", "statement": "A progress_indicator chain - timeout and global progress objects hosting each other to any depth over an indicator - passes every text and show/hide request to the indicator exactly once and in order; asks to cancel exactly if the indicator does or some deadline along the chain has passed, and goes on asking; and maps every reported value into the outermost section, without going back if the reported values do not, start to start and end to end when each section is the whole of its host's range; so that on a lazy indicator at the end what is shown stays in range, never goes back, and ends with the end when the job does, at whatever times the values come.", "quantifier": "all chains of any depth with all ranges and sections whose products fit the type, all histories of calls, all clock readings and timeouts", "why_tests_cant": "Depths, ranges, histories and clock readings are unbounded.", "anchors": ["include/stdex/progress.hpp: progress, lazy_progress, timeout_progress, global_progress"]}
{"id": "C148", "title": "Records in std::istream and std::ostream", "statement": "A record written to a std::ostream, the data in any pieces, is appended in the format the file overloads use (id, size, data, zeros to the alignment) if there is room, and otherwise the stream has failed and what was there before stays; close returns -1 exactly when the stream failed and else the position behind the record. From a std::istream, read_id gives the id of a record that starts before the limit, ignore ends exactly behind the record, find positions behind the id of the first record that has it or returns false without reading behind the limit, it ends on any stream whatever its state and contents, and operator >> with any data operator that leaves the stream good ends exactly behind the record.", "quantifier": "all ids, field sizes, alignments, data, pieces of data, preceding records, following bytes, capacities, data operators, and whatever the library does where the standard leaves room", "why_tests_cant": "The stream can run full at any byte and the contents, the library's look-ahead and the data operator are arbitrary; a test sees one library and a few containers.", "anchors": ["include/stdex/idrec.hpp: read_id, ignore, find, open, close, record::operator<<, record::operator>> (std::istream, std::ostream)"]}
{"id": "C149", "title": "Streams over COM objects and ASP requests", "statement": "Whatever an ISequentialStream does, if sequential_stream::read returns, its data is exactly what the object delivered, in order, never more than asked for, and the state tells end or failure only if there is no data; write reports exactly how many bytes the object accepted, all of them or failure. They return if every successful call moves at least one byte. Over an object that reports its end by S_FALSE the stream is a source like any other. asp::read and asp::write always return, with the same guarantees, and fail without a request or response; flush tells if the response was flushed.", "quantifier": "all objects (any sequence of results, short transfers and failures), lengths and data", "why_tests_cant": "The object may transfer any part of what is asked for, end or fail at any call; tests have one object.", "anchors": ["include/stdex/stream.hpp: sequential_stream::read, sequential_stream::write, asp::read, asp::write, asp::close, asp::flush"]}
{"id": "C150", "title": "Unicode normalization appends the normalized text", "statement": "normalizecat appends the normalized form of the source text - up to the zero and the count - or, where the system cannot normalize it or the form does not fit, the text as it is; the string before stays, and normalize does the same to an empty string.", "quantifier": "all texts, counts, destination strings and normalizing systems", "why_tests_cant": "Any text in any normal form; length changes of the form are rare in samples.", "anchors": ["include/stdex/unicode.hpp: normalizecat, normalize"]}
{"id": "C151", "title": "Parsing is local", "statement": "Any parser built of the library's code-unit, set, string, line-end and combinator parsers, matched or searched from a position inside a text, gives what it gives on the rest of the text alone, with all positions moved by the length of what was cut off; it makes no difference how the text is held (terminated or counted, or what lies behind its end) or what state the parser was in. The same holds for integers, URLs and e-mail addresses of such elements. The one exception is the beginning-of-line parser at the cut.", "quantifier": "all grammars of any depth, all prefixes and texts, all positions, all previous parser states, all flags and locales", "why_tests_cant": "A test compares a few parsers at a few offsets; locality is about every grammar and every surrounding text, and parsers that looked back, kept state or used absolute positions would pass such tests", "anchors": ["include/stdex/parser.hpp: basic_parser::match, basic_parser::search, basic_iterations, basic_sequence, basic_branch, basic_permutation, basic_bol, basic_string, basic_cu_set, basic_integer10, basic_url, basic_email_address"]}
{"id": "C152", "title": "The check digits of IBAN and creditor reference find errors", "statement": "Of two IBANs (or creditor references) that match and that differ in a single character - another digit for a digit or another letter for a letter, anywhere in the country code, check digits or number - or in two neighbouring digits or letters interchanged, is_valid is true for at most one; blanks, position in the text, flags and earlier matches make no difference. For every number there are check digits that make it valid. (Check digits are not unique: 01 and 98 may both be accepted.)", "quantifier": "all pairs of texts, positions and blanks; all single-character substitutions and all transpositions of neighbours", "why_tests_cant": "There are too many pairs to try; a remainder computed in pieces of nine digits, with the wrong carry or the parts in the wrong order, accepts some wrong numbers only", "anchors": ["include/stdex/parser.hpp: basic_iban::do_match, basic_creditor_reference::do_match, is_valid"]}
{"id": "C153", "title": "CRC-32 finds errors", "statement": "If two messages differ, and all bits that differ are within 32 consecutive bits, or they are just two bits less than 2^32-1 bits apart, then their CRC-32 values computed by the library differ, in whatever pieces each of the messages was hashed.", "quantifier": "all messages of any length, all error patterns within 32 bits at any position, all pairs of bits, all splits into calls", "why_tests_cant": "Error patterns times positions times messages cannot be enumerated; a wrong table entry or a wrong shift keeps most values distinct", "anchors": ["include/stdex/hash.hpp: crc32_hash::hash, crc32_hash::finalize, crc32_table"]}
{"id": "C154", "title": "The check digits of Slovenian payment references find errors", "statement": "If a Slovenian payment reference that has a check digit (other than 0) is reported valid, then the same reference with one digit of the checked number replaced by another (except the 11th or 22nd from the right), or with two neighbouring digits interchanged (where the check digit does not become 0), is reported as not valid. Which errors are not found is stated too: the eleventh digit, and errors under the check digit 0.", "quantifier": "all texts, positions, models and numbers of parts (but 01 with three parts), all places of the wrong digits", "why_tests_cant": "There are unboundedly many texts and 10^20 references", "anchors": ["include/stdex/parser.hpp: basic_si_reference::do_match, is_valid, check11"]}
{"id": "C155", "title": "Whatever is written through a pile of filters is what would have been written directly", "statement": "A program that writes to a stream, flushes it and asks for its state gets the same answers through any pile of converters, buffers, hashers and limiters (whose limits allow for what it writes) as from the stream itself, and after a flush the stream has got the same bytes, and every hash of the pile too. In particular numbers, strings, multisets and hash values (operator <<), marks of character sets, copied streams and records: values and records written through one pile and read through another are the same values and records.", "quantifier": "all programs (finite interaction trees), all piles of any height with any buffer sizes and limits, all destinations that accept everything, all values and records", "why_tests_cant": "There are infinitely many programs, piles and values", "anchors": ["include/stdex/stream.hpp: operator <<, write_data, write_str, write_stream, buffer, limiter, converter; include/stdex/idrec.hpp: operator <<; include/stdex/hash.hpp: operator <<, stream_hasher"]}
{"id": "C156", "title": "SGML entities mean what HTML says", "statement": "Every character entity reference of HTML 4, and every other named character reference of HTML 5 that the library knows except 43 older ones, decodes to the character HTML assigns to it; a letter followed by the name of an accent decodes to the letter with that accent (except five names that denote a symbol), a Greek entity to its Greek letter; between other text the entity is replaced and the rest is decoded on.", "quantifier": "all names in the HTML 4 and HTML 5 lists, all ASCII letters and ten accents, all texts around the entity", "why_tests_cant": "tests decode a few entities; the table has 1535 entries, and a wrong one shows only when its entity is used", "anchors": ["include/stdex/sgml_unicode.hpp: sgml_unicode; include/stdex/sgml.hpp: sgml2uni, sgml2str"]}
{"id": "C157", "title": "Programs and values through base64 over any pile of streams", "statement": "A program that writes through a base64_writer put over any pile of filters (buffers, limits, hashes) sees the same as on a plain stream, and when the writer has been destroyed and the pile flushed, the stream below holds exactly the base64 text (with its line breaks) of what the program wrote. A base64_reader over any pile on that text delivers, for requests of any sizes that do not go past the end, the bytes written, state ok; so any sequence of numbers, strings and multisets written through the one is read back equal through the other.", "quantifier": "every program, every list of values, every line length of at least one block, every pile of filters on either side, every well-behaved source and destination, every cutting of reads", "why_tests_cant": "Each stream is tested alone with one message; the carry of the encoder, the line breaks, the flush on destruction and the short reads of the streams below meet only in composition", "anchors": ["include/stdex/base64.hpp:base64_writer,base64_reader,base64_dec::decode; include/stdex/stream.hpp:basic::operator<<,basic::operator>>,basic::write_array,basic::read_array,buffer,limiter,basic_hash_op"]}
{"id": "C158", "title": "Towers of filters, base64 and compression", "statement": "Buffers, limits, hashes, base64 writers and compressing writers can be put on each other in any order and number: a program that writes at the top sees the same as on a plain stream, and when the tower has been taken down from the top and flushed, every hash has got exactly the bytes that passed its place and the stream at the bottom exactly their translation. Read through a tower with the same translations and any filters on what arrived, the values written come back equal, state ok.", "quantifier": "every program, every list of values, every tower (any layers, any order, any sizes of blocks, buffers and lines), every compression library that keeps its manual's contract, every well-behaved source and destination, every cutting of reads", "why_tests_cant": "There are infinitely many towers, and each layer cuts the data of the one above in its own way", "anchors": ["include/stdex/zlib.hpp:zlib_writer,zlib_reader; include/stdex/base64.hpp:base64_writer,base64_reader; include/stdex/stream.hpp:converter,buffer,limiter; include/stdex/hash.hpp:basic_hash_op"]}
{"id": "C159", "title": "Towers between the library's own streams", "statement": "Everything said of piles and towers holds between the library's real streams. At the bottom may be, for writing, a memory_file that manages its memory, a fifo, a file opened in any mode for writing (positioned at its end, fsync succeeding), a system handle or socket, or an ISequentialStream that take at least one byte at a time, as long as there is room; for reading, any of them with the bytes that arrived. Values written through any tower on the one and read through any matching tower from the other are equal, with no exception and both ends in state ok.", "quantifier": "every such stream in every state (contents, cursor, queue layout, short transfers), every tower, every list of values, every cutting of reads", "why_tests_cant": "Each stream is tested alone; that short transfers of a socket, the queue's nodes or a file's cursor never show through the layers above holds for all of them or is not known", "anchors": ["include/stdex/stream.hpp:memory_file::read,memory_file::write,fifo::read,fifo::write,file::open,basic_sys::read,basic_sys::write,basic_sys::flush,basic::flush,sequential_stream::read,sequential_stream::write; include/stdex/socket.hpp"]}
{"id": "C160", "title": "What is escaped comes through the parsers", "statement": "What a program escapes and writes is what another program gets that parses the document and undoes the escape where the text lies. A URL put together of an origin (nothing, http://server, http://server:port), path segments and query parameters (name, or name and value), each escaped by url_escape with /, ?, = and & between, is, before white space or at the end of a document, matched by http_url exactly, and server, port, segments, names and values, unescaped in place, are those it was put together of, whatever octets they have. A tag of a name and attributes whose values html::escape escaped is matched by html tag exactly, with the same names, and values that sgml2str decodes to the same texts. A text that css_escape escaped, in quotes, alone, in url() or behind @import, is matched exactly and css_unescape gives it back, unless it ends in a backslash: then the parser never ends the string at its quote. A link, a URL as the value of an attribute, comes through both.", "quantifier": "every origin, every non-empty list of segments of any octets, every list of parameters with non-empty names, every list of attributes, every text, every document before and after, every locale in which the delimiters are not white space", "why_tests_cant": "Escapers and parsers are tested apart; that no octet escapes to a delimiter of the parser, that no delimiter of the parser is left in the text and that the runs end where they should must hold for every text in every place.", "anchors": ["include/stdex/html.hpp: escape, url_escape, url_unescape, css_escape, css_unescape; include/stdex/parser.hpp: http_url, http_url_path, http_url_parameter, html_tag, css_string, css_uri, css_import; include/stdex/sgml.hpp: sgml2str"]}
{"id": "C161", "title": "An HTTP request that is written is read", "statement": "What a client writes of a verb, an origin, path segments, query parameters, a protocol type, a major and a minor version, and headers, with url_escape, is what a server gets with http_request, http_header as long as it matches, and http_line_break: the same verb, server, port, segments, names and values (unescaped where they lie), protocol and version, and every header in order, with its name and its value; and the position after the empty line, wherever the request stands and whatever follows it (a body, another request).", "quantifier": "every verb and header name without white space (or colon), every header value without line feed and without white space on its sides, every origin, segments, parameters of any octets, versions below 256, every document around", "why_tests_cant": "The request line, the headers and the URL are parsed by different classes that hand positions to each other; that each ends exactly where the next has to begin must hold for every text.", "anchors": ["include/stdex/parser.hpp: http_request, http_protocol, http_url, http_header, http_line_break; include/stdex/html.hpp: url_escape, url_unescape"]}
{"id": "C162", "title": "HTTP media types and cookies that are written are read", "statement": "A media type (type/subtype; name=value; ...) or a cookie (name=value; $name=value; ...) that is written of tokens and of values in quotes (with backslashes before quotes and backslashes), anywhere in a text up to its end or a comma, is matched by http_media_type or http_cookie as a whole, with exactly the names and values that were written, in order; and texts that are written in the same way in quotes are the same", "quantifier": "every text before it, list of parameters, token, and text of printable ASCII characters in quotes", "why_tests_cant": "Names, values and their number are unbounded, and a value may hold any delimiters.", "anchors": ["include/stdex/parser.hpp: http_media_type, http_cookie, http_parameter, http_cookie_parameter, http_value, http_quoted_string, http_token"]}
{"id": "C163", "title": "HTTP lists of weighted values that are written are read by preference", "statement": "A list of weighted values (value;q=factor, value, *;q=factor) that is written of tokens or of languages and factors of digits with an optional fraction, up to the end of the text, is inserted into a weighted collection as a whole: the collection has each value (or asterisk) with the number that was written as its factor (1 without one), those with larger factors before others, and those with equal factors in the order in which they were written", "quantifier": "every text before it, list, value and factor of at most 19 digits on each side of the point, and every total order of factors", "why_tests_cant": "Lists, values and weights are unbounded in number and length.", "anchors": ["include/stdex/parser.hpp: http_value_collection::insert, http_weighted_value, http_weight, http_language, http_token, http_asterisk, http_weighted_collection"]}
{"id": "C164", "title": "Dates and times that are written are read", "statement": "If a day, a month and a year are written as decimal numbers with the same separator between them and any number of blanks around it, anywhere in a text, the date parser matches there: it reports the first of the formats it allows that makes a day of the calendar of the numbers in their order, with exactly these numbers, where they are written, and the match is the whole of the date and no more. Two numbers are read the same way, as a day and a month or a month and a year, and if none of the allowed formats makes sense of them nothing is matched; a date without year takes a further separator at its end, and another does not. Hours and minutes, with seconds and milliseconds if there are any, are read by the time parser with their numbers and in full.", "quantifier": "every date of two or three numbers below 2^64-1, every separator, number of blanks, set of allowed formats, and text before and after that does not continue the date; every time with minutes and seconds below 60 and milliseconds below 1000", "why_tests_cant": "tests try a few dates in a few formats; that every date that is written comes back, wherever it stands and whichever formats are allowed, is about all of them", "anchors": ["parser.hpp:basic_date::do_match"]}
{"id": "C165", "title": "Internet addresses that are written are found", "statement": "An IPv4 address, written as four numbers up to 255 with dots, anywhere in a text where no digit follows, is matched by the parser: the value is that of the address, the components are the intervals of the four numbers, and the match is the text of the address. An IPv6 address, written as eight groups of one to four hexadecimal digits with colons, or as fewer with :: in place of the groups that are zero, anywhere in a text where no hexadecimal digit (and after the short form no colon) follows, is matched: the components are the intervals of the groups, those that are not written are empty, and the match is the text of the address, with the scope id after % if one follows.", "quantifier": "every IPv4 address; every sequence of eight groups, and every two sequences of groups with less than eight together; every text before and after that does not continue the address; every parser of scope ids", "why_tests_cant": "tests try a few addresses on their own; that each of the 2^32, and of the 2^128 in any spelling, is found with its parts wherever it stands cannot be tried", "anchors": ["x"]}
{"id": "C166", "title": "Host names, e-mail addresses and web addresses that are written are found", "statement": "A host name of at most 127 labels with dots between them, anywhere in a text that does not continue it (a dot that ends a sentence does not, if absolute names are not allowed), is matched by the parser as a whole and nothing more. A user name, @ and a host name are matched by the e-mail address parser, with the user name and the host as they are written and nothing more; and no IP address is reported. An http or ftp URL that is written with a host name, and a port and a path with query and bookmark if they are there, is found by the URL parser, with the scheme, host, port and path as they are written, with the interval of all of it, and with no user, password or IP address. So are mailto: with an e-mail address, and file:// with a path, and no other part is reported. A user name and a password before the host are reported as they are written (a user name alone only in an http URL).", "quantifier": "every host name, whose labels begin and end with letters or digits and have hyphens in between; every user name of allowed characters; every text before and after that does not continue it; every http or ftp URL whose host name does not begin with a digit, whose port is a number below 2^64-1 and whose path begins with a slash; every mailto: URL with such a user name and host; every file URL with such a path or none; every such ftp URL with a user name and a password, or neither; every such http URL with a user name, with or without a password, or neither", "why_tests_cant": "tests try a few names at the start of a text; that every name is found wherever it stands is about all names and all texts", "anchors": ["include/stdex/parser.hpp: basic_dns_name::do_match, basic_dns_domain_char, basic_email_address::do_match, basic_url_username_char", "include/stdex/parser.hpp: basic_url::do_match, basic_url_path::do_match"]}

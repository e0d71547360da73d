# DESIGN — a Lean 4 model of Amebis/stdex

## Trusted base

* Lean 4.33.0's kernel.  No axioms of our own; the property theorems depend on at
  most `propext`, `Classical.choice`, `Quot.sound` (checked with `#print axioms`).
  No `native_decide`, no `bv_decide`, nothing left unproved.
* The reading of `/repo/include/stdex/*.hpp` as text.  Each model definition cites
  the file and lines it follows and states its simplifications.  The code was not
  compiled or run.
* Modelling conventions (all modules):
  * `char`/`uint8_t` = `UInt8` or `BitVec 8` (or an abstract element type where the
    code is a template that never looks inside elements); `size_t` = `Nat` unless the
    property is about wrap-around, then `BitVec 64`/explicit `% 2^64`.
  * Undefined behaviour is a distinct outcome (`none`, `Except.error .ub`, or a
    separate constructor), never silently totalised: the theorem either shows it is
    unreachable or a counterexample theorem shows that it is reachable.
  * `assert` counts as a precondition of the caller.
  * Loops become structural or well-founded recursion; memory blocks become lists or
    functions `Nat → α`; threads become interleaved atomic steps of a transition
    system (sequentially consistent memory; C++ weak memory is not modelled).
  * An abstract stream (the virtual base `stdex::stream::basic`) is a state machine
    given as a parameter: its read/write may transfer any amount (short transfers)
    and change state in any way the class contract allows.
* Not modelled: operating system objects (files, sockets, NUMA, Win32, COM), iconv,
  zlib, OpenSSL, memory allocation failure unless mentioned, floating point, and
  weak memory ordering.

## Layout

`lean/Verif/<Area>/Model.lean` is the code model, `Spec.lean` the small independent
specification, `Lemmas.lean` helper lemmas, `Props.lean` property theorems with
non-vacuity examples (and counterexamples where the code violates the claim).
Smaller areas use a single file with those sections.

## Where the code violates the property as a user would state it

A counterexample theorem (a concrete witness evaluated by the kernel) is kept beside
a `_partial` theorem covering the rest.  The list of such findings is at the end.

## Per-property plan

* **C01 Ring buffer is a lossless FIFO** — Ring state machine over a function-array; abstraction = list of committed, unpopped elements; refinement by induction over op sequences.
* **C02 Ring windows stay inside the buffer and never alias** — Same model; window bounds from the invariant size<=N, head<N.
* **C03 Ring shutdown semantics** — Same model with quit flag; blocking is a distinct outcome; theorem that no call blocks after quit.
* **C04 Ring never deadlocks with one producer and one consumer** — Transition system: program counters of producer and consumer, mutex, two condition variables as sleep-sets; inductive invariant.
* **C05 Hex encoder/decoder round trip** — Functions over lists with the coder's carry state; structural induction, chunk-append lemma.
* **C06 Hex decoder ignores noise and respects its size bound** — Same model; noise filter lemma, length bound by induction.
* **C07 Base64 encoder conforms to RFC 4648 for every chunking** — Model of encode with m_buf/m_num; spec = RFC 4648 over 3-byte groups; append lemma.
* **C08 Base64 decoder inverts the encoder** — Same; decode table inverse, induction on blocks.
* **C09 Base64 buffer size predictions are upper bounds** — Same; length bounds by invariant on carry count.
* **C10 Base64 stream filter round trip** — Model of writer and reader loops over abstract stream; counterexample for the reader's lost tail; partial theorem otherwise.
* **C11 vector_queue is a bounded deque** — Model with 64-bit index arithmetic; refinement to a List; counterexample for push_front.
* **C12 vector_queue copies are equal and independent** — Same model.
* **C13 Interval algebra** — Int model.
* **C14 Object pool never hands out an object twice** — List-per-node model, multiset conservation over histories.
* **C15 Checked size arithmetic** — Nat model with 2^64 bound.
* **C16 Rotation and scaled multiplication** — BitVec model.
* **C17 Byte swapping is an involution and little/big-endian conversion is lossless** — BitVec model.
* **C18 Block hashes are independent of how the data is split** — Abstract compression function, buffer carry; append lemma.
* **C19 Block hash padding is Merkle-Damgard with exact bit length** — Same, plus finalize; spec = padding function.
* **C20 CRC-32 table and incremental computation** — BitVec model, table by `decide`, GF(2) shift lemma.
* **C21 Hashing stream filter is transparent** — Abstract stream parameter.
* **C22 Digest equality is byte equality** — BitVec model of XOR/OR folding.
* **C23 Position mapping by bisection equals the linear definition** — Bisection loop as well-founded recursion; linear spec.
* **C24 Hinted position mapping equals the un-hinted one** — Same.
* **C25 Mapping inversion** — Same.
* **C26 Spin lock mutual exclusion** — Transition system with n threads and an atomic flag.
* **C27 Watchdog fires iff it was not reset within the timeout** — Event-trace state machine of run(); time abstracted to 'timeout elapsed' events.
* **C28 memory_file behaves like an abstract byte array with a cursor** — Byte array + cursor; refinement to abstract file; counterexample for read after seek past the end.
* **C29 memory_file never touches memory outside its allocation** — Same model with explicit block size and UB outcome.
* **C30 fifo stream is an unbounded lossless byte queue** — List of chunks with head offset; abstraction = concatenation.
* **C31 Array reads count only complete elements** — Abstract short read; counterexample and partial theorem.
* **C32 Stream copy is complete or reports failure** — Loop over abstract source/destination; counterexample and partial theorem.
* **C33 Serialization round trip of scalars and strings** — Codec over byte lists.
* **C34 readln splits a stream at line ends** — List function; spec by splitting.
* **C35 Buffered stream is transparent** — State machine of buffer over an abstract stream.
* **C36 limiter never transfers more than its limit** — State machine over an abstract stream.
* **C37 window exposes exactly the requested region** — State machine over an abstract stream.
* **C38 file_window confines access to its region** — State machine; counterexamples.
* **C39 Cache is transparent** — Block cache state machine over an abstract file; partial theorem + counterexamples.
* **C40 Asynchronous read-ahead and write-behind preserve the stream** — Ring transition system plus worker loop.
* **C41 replicator delivers every operation to every sink** — Worker op state machine.
* **C42 Byte-order-mark detection** — List function.
* **C43 String comparison is the lexicographic order of NUL-terminated strings** — Lists; lexicographic spec.
* **C44 Substring search returns the first occurrence** — Lists.
* **C45 Character search** — Lists.
* **C46 Bounded copy and concatenation never overflow** — Arrays as lists.
* **C47 Trimming removes exactly the leading/trailing blanks** — Lists.
* **C48 CRLF conversion** — Lists.
* **C49 Integer parsing** — Nat/Int model of the parser; counterexamples for overflow.
* **C50 UTF-16 surrogate handling is lossless** — BitVec/Nat model.
* **C51 ASCII case mapping** — Int model; counterexample for toupper.
* **C52 Calendar conversion is a bijection** — Int/Nat arithmetic; omega-style proof against an independent day-count spec.
* **C53 Time stamp conversions are consistent** — Int arithmetic; counterexample for timespec.
* **C54 Record container: padding, skipping and finding** — Byte-list model.
* **C55 Aggregated progress equals the sum of workers** — Transition system with workers' deltas.
* **C56 Progress sections map linearly into the global range** — Int model.
* **C57 Lazy progress forwards the endpoints and never repeats values** — Clock readings as parameters.
* **C58 UUID text round trip and rejection** — List model; counterexample for the separator check.
* **C59 Minisign signature parsing** — On top of the base64 model.
* **C60 SGML entity encoding is reversible** — List model; table as parameter plus the needed table facts.
* **C61 Parser combinators match languages** — Parsers as objects with state (Parser/Core), a contract every combinator keeps (Parser/Combine, Perm), trees by induction (Parser/Tree). One `shared_ptr` used at two places of a tree is not modelled.
* **C62 Line breaks and glyph lengths** — Lists; counterexamples.
* **C63 progress_switcher restores the host** — Heap of indicators; induction over nested scopes.
* **C64 timeout_progress cancels after its timeout** — Clock readings as parameters.
* **C65 A detached host indicator is not used any more** — Transition system of C55 with calls in progress.
* **C66 SGML error location** — Same pieces as C60.
* **C67 SGML decoding maps positions** — Mapping of C23 on the points that the decoder pushes; counterexample.
* **C68 SGML encoding is ASCII and hides what is asked to be hidden** — Encoder model; facts about the table by kernel evaluation of the whole table.
* **C69 SGML conversion to a fixed buffer stays inside the buffer** — Buffer as list with explicit writes; refinement to the string versions; counterexample.
* **C70 Intervals of nested parsers** — The contract of C61 carries the outcome: a predicate on the tree of states.
* **C71 Elementary parsers** — Parser/Leaf: functions from the start to the end, characterised by the text.
* **C72 Parsers of SGML text** — Parser/Sgml: `pieceAt` says what the piece at a position stands for (by `meaning` of C60) and the parsers are tests of it.
* **C73 Integers in text** — Parser/Number: the digit parsers are functions from position to end; `Written` relates text and digits, `positional` gives their number.
* **C74 Roman numerals** — Parser/Roman: the loop keeps the last four digits; invariant: they are the end of a `Proper` numeral whose `romanValue` is the value.
* **C75 Compound numerals** — Parser/Numeral: each parser with the state of its parts; a relation per grammar. `double` is exact arithmetic.
* **C76 Internet addresses in text** — Parser/Ip: `BoundedAt` for the bounded numbers, `FullAt`/`CompactAt` for IPv6; the alignment after `::` is shown to be independent of stale components.
* **C77 Bank account numbers and creditor references** — Parser/Iban: the sorted list and its search, the loops, the remainder computed by blocks of nine digits (with `strtou32` of C49); specification by `Spaced`/`Fours` and `isoNumber`.
* C78: si_reference 5071-5474 in Parser/SiRef.lean; the chain of models is compared with a table of rules, case by case over the 100 models and by proof over all parts; check11 by induction over the digits with weights; parts by an inductive relation on the text.
* C79, C80: basic_date 3993-4243, basic_time 4258-4345, basic_angle 4360-4468 in Parser/DateTime.lean; formats as relations on positions (blanks, separator with hit offset, integers), each block of the code shown to decide its relation, then the chain by the order of formats.
* C81 (JSON strings): Parser/Json; the loop with its chain of escape sequences; the grammar of RFC 8259 as an inductive relation, Lean's UTF-8 encoder as the specification of the encoding; completeness by induction over the grammar, soundness by induction over the loop.
* C82 (DNS names): Parser/Dns; both loops; names as an inductive relation over the elements and as texts; the loop invariants keep the longest label so far.
* C83/C84 (Parser/Url.lean): URL characters compared with RFC 3986, paths split at the first ? and #, and basic_url / basic_email_address as functions of the element parsers; the specification is a set of inductive relations for scheme, user, host, port and path, and the theorem is an equivalence with the result (both matched and unmatched), plus the order of the intervals.
* C85 (Parser/Phone.lean): the state machine of basic_phone_number; the specification says which element may follow a prefix (May), and the loop invariant connects the six flags to the prefix read; the result is the longest well-formed number.
* C86/C87 (Parser/Emoticon.lean): emoticons against a relation with free choice of apex and nose; chemical formulas as the longest run of elements and digits.
* C88-C90 (Parser/Http.lean, Parser/HttpMedia.lean): line breaks, white space, tokens, quoted strings, values, parameters, media types and cookies against relations over the text; the loops by induction on the rest of the text.
* C91 (Parser/HttpUrl.lean): URLs against relations over positions of the text; loops by induction on the rest; uniqueness of the reading.
* C92/C93 (Parser/HttpLang.lean): languages, weights, weighted values, collections against relations; insertion sort for the multiset: permutation, order, stability.
* C94, C95 (Parser/HttpReq): scan loops as `scan`/`lineScan` with fuel, specification by positions (RunAt, LineRun, BreakTo), dichotomy with uniqueness; the value of headers by induction on the rest of the text, with Trimmed as the specification.
* C96, C97 (Parser/Css): chains of && as litAt (short-circuit reads), loops with fuel; specification by first positions (FirstLit, EndQuote, TrimEnd, RunAt); every theorem is Decides: defined, and equivalent with the specification.
* C98, C99 (Parser/Html): as Css; the loop over attributes is specified by the inductive grammar AttrsAt and proved deterministic; StuckAt says exactly where the loop makes no progress.
* C100 (Html/Escape.lean): the escape loops over a buffer with a limit; output split in pieces, each decoded by the decoder of C60.
* C101 (Html/UrlEscape.lean): url_escape as a map over characters, url_unescape as the index loop with its unchecked reads; specification is the relation UrlReads.
* C102 (Html/CssEscape.lean): css_unescape as a step function, iterated; specification is the relation CssReads, one rule per kind of escape.
* C103, C104 (Html/Elements.lean): `element_code` is modelled with its table, its binary search and its comparison, `element_traits` with its tables and switches, generated from the source text. Proved by the order of the table and an invariant of the search; the tables by evaluation over the whole enumeration; attribute names through `strnicmp`.
* C105-C111 HTML documents: Document.lean models document::append with its modes and stack as a step function over positions of the store; DocMove.lean turns a round into an inductive relation; invariants over all histories (DocSource, DocTree, DocClose, DocSpecial), totality (DocTotal), marked sections (DocSections) and appending nothing (DocAgain). Sequences behind pointers are positions in a list; m_condition_end is called first in every mode (the parsers are pure).
* * C112-C113 Character set and entities of HTML documents: DocCharset.lean relates the character set to the attributes of the meta elements (MetaCharset, from the grammar of MIME types), DocEntities.lean the entities to the declarations (Declare, Expands); both by an invariant of Move, with texts that only grow.
* C114/C115 (html.hpp 1960-2683): tokens as records in a list with an arbitrary injective placement; parse and link as functions with an explicit outcome (fault, throws, done); the specification Renders says what the output is from the document alone. Proof: an invariant on the tokens (each one's text is a sequence of characters and tags of earlier tokens, Bits/Sound), then induction over the parser's loop.
* C116-C118 (html.hpp 2270-2377): active lists as lists of token numbers; the specification is a list of events (opens, closes, puts), with a replay that lets only the innermost element be closed.
* C119: the same model as C115; partial correctness of the parser's loop with a growing-token relation (Swells).
* C120: stricmp_less, the map (insertion, lookup), both tables (generated from the source). Order laws of the comparison, lookups in sorted lists; tables compared by the kernel.
* C121, C122: memory_file's own read_data, read_str, write_data, write_str, write_stream, load, save, get, set on the model of C28; loop invariants on the destination with the bytes copied so far.
* C123-C126 (wav.hpp): every chunk's operators as byte-level functions over streams (Verif/Record/Wav.lean); a record's operator >> as a function of the data's operator (RecordValue.lean), shown natural in the stream so that it runs alike on the limiter and on a list of bytes; the format as explicit bytes; round trips by computing both sides. read_cues and << of cues over files of chunks: induction over chunks, std::sort and std::bsearch as any functions that keep their contract. find_first by induction over the chunks passed. remove_cues by induction over chunks.
* C127: Os is an arbitrary pair of read/write transitions; loops of stream.hpp 2208-2332 and 2359-2485 by fuel, invariant Delivers/Accepts; then the sys stream is shown to be an IsSource and a Reliable sink, so all theorems over streams apply to it.
* C128: Fil is an arbitrary file automaton; diag_file's loops over the collection; by induction on the history against each file run alone.
* C129: the map is modelled with stricmp's order (C43's lemmas give a strict weak order), the specification is a separate list of names per set.
* C130: iconv is an abstract converter with a contract; the loop by induction on what is left of the text.
* C131: deflate and inflate are automata with a contract; the loops of zlib_writer and zlib_reader by induction on rounds, invariant: consumed ++ buffered ++ left in the source is the compressed stream.
* C132 (Sys/Handles.lean): the world is the list of open handles and each object's handle; an invariant (every open handle has exactly one owner and conversely) is preserved by every operation, hence by every history, by induction.
* C133 (Str/Format.lean): the C library's printf and strftime as a parameter with their C17/POSIX contract (what fits, what is returned, errno, unspecified contents of buffers); vappendf, strcatftime and to_str with their doubling loops; induction on the distance of the capacity to the length.
* C134 (Str/Case.lean): the loop in memory with reads outside as failure; specification by the text of the string; induction on the characters left.
* C135 (Sys/RefPtr.lean): owners and references as holders of pointers; invariant that each allocated resource has exactly one holder, preserved by releasing, taking and adding; induction over histories.
* C136: file on disk (stream.hpp 2679-3068): a file system as a map, an open file with position and rights, transfers cut down by an arbitrary script; basic_sys loops over it (SysStream); theorems by the laws of the loops and of lseek/ftruncate/open. Stream/DiskFile.lean.
* C137: save/load (stream.hpp 3469-3544) over the disk model: an open file is a source (disk_source), so the theorems about write_stream apply; saving by file_write and file_truncate. Stream/SaveLoad.lean.
* C138: ownership of the memory of memory_file (stream.hpp 3221-3461, 3886-3898): a heap with blocks, their sizes and who has to free them, any number of objects; invariants Owned and Fits by induction over histories. Stream/MemoryOwner.lean.
* C139 — Hash/Stream: operators over an abstract stream (IsSource, Reliable); induction over the sequence of values on top of read_array's theorem.
* C140 — Stream/CacheFail: the cache with all failure branches over a file with a script of write bounds; each call either coincides with the one of Cache.lean or keeps the abstraction Abs; induction over the history.
* C141: Sgml/Utf16.lean models the utf16_t variants of sgml.hpp; they are shown to be the UTF-32 specification of C60 on the characters of the text.
* * C142: Record/StreamRec.lean models ignore and the record operators for basic streams and std::istream, over any lawful source and reliable sink; the limiter over such a source is again a source that has exactly the record's data.
* * C143: Str/Collate.lean models strcoll, strncoll and strtod with the library functions as parameters, and shows what text they are given.
* C144: a simulation between a parser on SGML text and the same parser on the decoded text. place k is where the k-th piece begins; leaves mirror (lemmas per leaf), combinators preserve mirroring (induction on the tree), and the hand-written composites (URL, DNS, IP, e-mail) are shown to mirror step by step.
* C145: the simulation of C144 for the numerals, dates, times, angles, emoticons, formulas and phone numbers; phone numbers carry the list of intervals taken, so that the value is the SGML source of the decoded value.
* C146: inductive list of filters over an arbitrary stream (Verif/Stream/Stack.lean); a coinductive-style relation (states, delivered so far, still to come) shown preserved by each filter, hence a stack is a source; dually for writing with a capacity.
* C147: inductive type of chains of hosts (Verif/Progress/Chain.lean); calls, cancel by recursion; induction over the chain and the history; composed with the lazy_progress of C57.
* C148: Record/StdRec.lean models std::istream (bytes, position, eofbit, failbit) and std::ostream (file with room for cap bytes) by the standard, and the idrec overloads on them; proved by induction on the records / bytes left.
* C149: Stream/ComStream.lean models sequential_stream and asp over arbitrary COM methods; read loop by induction on fuel, the other loops are shown equal to those of C127.
* C150: Str/Normalize.lean models normalizecat/normalize over any NormalizeString that keeps its documentation; by cases on its result.
* C151: an inductive type of grammars (the leaves of Leaf.lean and the combinators of Tree.lean) and its objects on a text; translation is a position map, so the mirror machinery of C144 applies; integers and URLs follow from their mirror theorems.
* C152: the number checked is a linear form in the characters modulo 97; 10 is invertible and has order 96, so a change of one character or a swap changes the remainder.
* C153: the table-driven loop is the bit machine (C20); each step is linear and injective, up to 32 bits may be added at once; the state 1 has the period 2^32-1, by the five maximal proper divisors.
* C154: Parser/SiError.lean over the specification of C78: the sum weighted by 1, 2, 3, … from the right is divisible by 11 if a number passes and does not end with 0; one digit changes it by (c-d)·w, two neighbours by c-d.
* C155: Stream/Program.lean: programs as finite interaction trees; run_accepting by induction on the tree over the invariant Accepting of C146; the operators << of the model are shown to be runs of such trees; what they write is what they write to an ideal stream; reading by homomorphisms.
* **C156** Sgml/Entities.lean: separate lists of HTML 4, HTML 5, accented letters and Greek letters; one pass over the sorted table (walk_spec) shows that the first entry of each name has the listed text; then pieces_entity and sgml2str_decodes give the decoded text.
* C157: base64_writer's write and destructor as programs (Prog) on the stream below, base64_reader's loop over an arbitrary stream one byte at a time; on an accepting pile the writer is the list writer of C10, on a source the reader is the list reader; as long as no more is asked for than the text holds the reader delivers it exactly, which suffices for the reading of values (Stream/Base64Pipe.lean).
* C158: towers. Writers that translate as programs on the stream below (Codec), piles of codecs and filters by the invariant WritesAs; zlib_reader as a pile (Reads) over any pile by zread_spec on the ghost source; then induction on the tower. Stream/Tower.lean.
* C159: Stream/Ends.lean. Streams of memory files, queues, files, system handles, sockets and ISequentialStream as bottoms (WriteEnd, ReadEnd are the specification); Takes/Reads of Tower.lean and Stack.lean are shown of each from its own function-level model, then the tower theorems are instantiated.
* - **C151** (continued, Parser/ShiftParts.lean): the parsers of numbers, dates, times, angles, addresses, names, phone numbers, emoticons and formulas with their elements given as grammars; that elements take some of the text is read off the grammars (`Advances`, sufficient, proved by mutual induction).
* C160: a small program writes URLs, tags and quoted CSS of parts with the escapers of C100-C102; the specifications of the parsers (C91, C99, C102) decide the text in any place of any document; the unescapers applied where the parser says give the parts. By induction over the segments, the parameters, the attributes, the characters.
* C161: the client is a program over url_escape and literals, the server a program over http_request, http_header and http_line_break. C160 gives the URL, the specifications of C94 and C95 are shown to hold of the written text at each place, and that there is just one such request and header gives what the parsers return. By induction over the headers.
* C162: composes the writers (not in the library: RFC 2616 texts) with the models of http_media_type and http_cookie (HttpMedia.lean); induction on parameters with positions (params_at), uniqueness of readings from C89/C90.
* C163: writers of lists composed with http_weighted_collection (HttpLang.lean); induction on the list with positions, then the insertion lemmas of C93.
* C164: writeThree/writeTwo/writeTime write numbers with separators and blanks; the parsers of C79/C80 with integers of C73 read them. Two- and three-part tries are determined by two_spec/three_spec (uniqueness), the order of formats by date_chain.
* C165: dotted/groupText write addresses; ipv4_spec and ipv6_spec of C76 read them, once the groups are shown to stand where they were written (groups_at, by induction).
* C166: dnsName_spec (C82) gives the longest name; name_text shows that what is written is one, and name_stops that none goes further; email through it.
* C166 (URLs): web_written, ftp_written, login_written, mailto_written and file_written put a URL of known parts anywhere in a text and derive that url finds it with those parts, from dns_written, email_written, number_at and urlPath_parts; not covered: ftp with a user and no password (which is wrong, url_ftp_user), hosts that are IP addresses or begin with a digit.

## Findings

Places where the code does not do what its documentation or a user would expect. Each has a theorem about the model (or, where marked "by reading", was
left out of the model and is only noted).

* `ring`: with a third thread in `sync()` a `notify_one` can wake the wrong thread, and all sleep (`ring_third_thread_deadlock`).
* `base64_reader`: the last, padded block is copied but not counted (`b64_reader_loses_tail`). `base64_writer` returns a wrong count on failure.
* `vector_queue::push_front`: the index wraps modulo 2^64 before it wraps modulo the capacity (C11).
* `rol` by 0 shifts by the width of the type; `muldiv` of 64 bits overflows (C16).
* `block_hash::hash` of 4 GiB or more in a single call loses the upper bits of the length (C18, C19).
* `watchdog`: a callback may run after the destructor has begun (`callback_after_quit_possible`).
* `memory_file`: reading after seeking beyond the end reads outside of the block (`read_beyond_end_ub`); writing there leaves a gap of stale bytes
  (`gap_shows_deleted_byte`); `truncate` beyond a fixed buffer leaves size > reserved; `reserve` wraps (`reserve_wraps`).
* `read_array`: an element that was read in part is counted as a whole (`read_array_counts_incomplete_element`).
* `write_stream`: the state of the destination is overwritten by that of the source (`write_stream_loses_failure`).
* `operator >>` of vectors and sets: no `return` (undefined behaviour; by reading).
* `buffer::close` does not flush (`buffer_close_keeps_data`).
* `window`: at its end `skip` may throw instead of reporting the end; writes are over-reported if the destination fails.
* `file_window`: `skip` does not update the offset; `seek` is not relative to the region (C38).
* `cache`: stale block after a write longer than a block (`cache_stale_block`), gaps show garbage (`cache_gap_garbage`), `size()` is wrong after reading past
  the end, a zero-length write past the end grows the file, a zero-length read at the end reports the end (C39).
* `async_writer`: after the destination failed, writes still report success while the ring has space. `async_reader`: a zero-length read blocks.
* `toupper` gives -1 for every lower-case letter (`toupper_wrong`); the order of `strcmp` is not that of signed characters (`strcmp_signed_order`);
  `strnicmp` of arrays has no `return` (by reading); `strndup` and the one-count `strncat` don't terminate; conversion to narrower characters may end a copy
  early (`strncpy_narrowing`); `islbreak` ignores the last character; UTF-32 `glyphrlen` is off by one; `strtoint` wraps and `strtouint` of negative numbers is
  the one's complement (C49).
* `aosn_timestamp` from `timespec` divides by 1000 instead of 1000000 (`timespec_wrong`); 29 February and 1 March of year 0 collide (`dmy_collision`).
* `idrec`: size and padding wrap (`padded_wraps`).
* `global_progress`: the product overflows (`section_overflow`); `aggregate_progress`: the host may end with a stale sum (`agg_stale`).
* `strtouuid`: the fourth separator is not checked, and read beyond the end of the text; the wide `uuidtostr` passes an extra argument (C58).
* `parse_minisig`: a signature on a last line without line break is ignored (`unterminated_ignored`).
* `str2sgml`: 133 texts are encoded by an entity of another text (`sgml_lossy`). `sgml2str`: positions before the first entity are mapped wrongly
  (`sgml_src2dst_wrong`). `str2sgmlcat` to a buffer: overflow (`str2sgml_overflow`).
* `integer10`, `integer16`: values wrap modulo 2^64 without notice (`integer10_wraps`). `integer10ts`: `digit_count` and `has_separators` are stale after a failure (by reading).
* `scientific_numeral`: decimals beyond 2^64 wrap: 0.99999999999999999999 is read as 0.077… (`scientific_decimals_wrap`); on failure `value` is stale.
* `ipv4_address`: `value` is not in network byte order, as the result of the conversion is dropped (`ipv4_bytes_reversed`). `ipv6_address`: `value` is always all zeros (`ipv6_value_zero`), and a colon behind a compacted address is taken as part of it.
* `creditor_reference`: a reference of 20 or 21 letters overruns a local array (`creditor_overflow`); a blank behind a full last group is part of the match.
* si_reference::check11 of two parts (5446) replaces only 10 by 0, not 11, so a reference with a weighted sum divisible by 11 is refused although its check digit 0 is right; check11 of three parts (5469) compares with part2[num_part3 - 1] instead of part3[num_part3 - 1] (theorems siRef_refuses, siRef_stray).
* basic_date::is_valid (4208-4217) takes a month or day of SIZE_MAX for 'not given': a date with month 18446744073709551615 is accepted as January (theorem date_greatest). 29 February is accepted in every year.
* `json_string`: the halves of a surrogate pair are encoded separately, which gives CESU-8 instead of UTF-8 (`json_surrogates`), and in a 4-byte `wchar_t` two units instead of a character; if `m_chr` accepts a backslash, invalid escape sequences are taken literally (`json_backslash`).
* parser.hpp:3549 (basic_url, ftp): the @ after a user name without password is looked for at interval.end, not at username->interval.end as in the http branch, so ftp://user@host is parsed as host `user` with path `@host` (url_ftp_user).
* parser.hpp:4526-4527 (basic_phone_number): m_lparenthesis and m_rparenthesis are dereferenced although 4552, 4565 allow them to be null (phone_null).
* parser.hpp:3936, 3947 (basic_emoticon): after the loop over repeated mouths mouth->hit_offset is that of the match that ended the loop, so it is never the mouth matched (emoticon_hit).
* parser.hpp:3925 (basic_emoticon): the apex is never given back, so B) is not found if B may be an apex as well as eyes (emoticon_apex).
* http_space (5621, 5628): isspace includes CR and LF, so white space runs over line breaks that no white space follows (space_break).
* http_text_char (5659): `text[..] >= 0x20` with signed char does not accept bytes above 127 in quoted strings, while http_token accepts them (quoted_byte).
* http_parameter (5866): `else while`: white space after `=` is not skipped (`a= b` does not match), and without `=` the parameter still matches (`a b`): param_space, param_noequal.
* http_url_parameter (6251) reads `text[interval.end]` without comparing with `end`: outside of the text by one, and an equals sign there makes it match outside of its limit (url_outside).
* http_url_path (6176): at `start == end` it goes on, so a path is matched outside of the text (url_limit).
* http_url (6325): a colon without digits leaves `port.value` 0 instead of 80 (url_port).
* http_weight (6491-6492): the fraction and its power of ten overflow after 19 digits; with 64 digits the division is by zero, and 0.000... is NaN (weight_zero), which breaks the ordering of http_weighted_collection.
* http_weighted_value (6598): `factor` is not reset where there is no q=, so a parser used before keeps the old factor, and its interval takes in white space after the value (weighted_stale).
* http_agent (6800): without a slash `version` is not reset, so a parser used before keeps the old version (agent_stale).
* http_protocol (6880, 6897): a version at the end of the text is an error, something has to follow it (protocol_open); numbers are truncated to 16 bits.
* http_request (7024): if the protocol does not match, the rest of the line is not consumed, and the match ends amid the line (request_rest, request_open).
* css_string, css_uri, css_import (7524, 7603, 7717): only quotes are escaped, so a string that ends with an escaped backslash goes on over its end (css_backslash).
* mime_type (7849): a charset without quotes contains the semicolon that follows it (mime_semicolon).
* html_tag (8150-8242) does not come to an end, and its vector of attributes grows without bound, for an end tag or a declaration with />, as </a/>, <//> or <!a/>: html_ident matches an empty identifier there (htmlTag_hangs, htmlTag_stuck). A short text from outside exhausts the memory.
* html_ident (7903) matches an empty identifier before >, = and />, so <> is a tag with an empty name.
* html::escape of char: the no-break space case compares a char with 0xa0: dead where char is signed; where it is unsigned, it replaces one octet of a UTF-8 sequence (escape_utf8_nbsp).
* html::url_unescape reads up to two characters behind num_chars, and decodes them (url_unescape_overrun). html::url_escape does not escape the double quote (url_escape_quote).
* html::css_unescape of a text that ends in a lone backslash at the limit never returns (css_unescape_hangs); if it is terminated in front of the limit, the terminator is appended and the memory behind it is read (css_unescape_past_end). A space behind six digits is kept, contrary to CSS (css_unescape_six).
* `element_code` truncates wide characters to `char`: the name U+0161 is taken for `a` (html.hpp 1478); `element_code_truncates`.
* `may_contain(table, tr)` is false: a `tr` directly in a `table`, as most tables are written, ends the table, the body and the document (html.hpp 1210); `table_row`. Also `rt` counts as an element without end tag, and `embed` both as one and as one that has content.
* html.hpp 1696-1710: text before a marked section is lost (doc_loses_text). 1702-1703: sections inside of an ignored one are not counted, so that the first ]]> ends it (doc_ignore_nested). 1811: the end tag of an unknown element ends any unknown element (doc_unknown_end). 1808-1820: elements inside of the ended one are left without an end (doc_inner_open). 1869-1876: finalize leaves m_is_special_element set and the stack empty, so that a later append dereferences a null pointer (doc_finalize_special). 1657: pieces are not the same as the whole (doc_pieces). A row ends its table (doc_table_row). 1835: values of entities keep their quotes.
* * html.hpp 1835: the value of `<!ENTITY % name "value">` keeps its quotes and ends at the first white space, so that `<![%name;[` with "IGNORE" is not ignored (doc_entity_quotes).
* html::parser: quotes decoded from attribute values are written back unescaped (relink_injects): attribute injection. U+0012/U+0013 written as entities forge token pointers (relink_forged). Unended code, script, style: null dereference (relink_unended). Mapping points of the second and later texts of a token are displaced (relink_map_doubled; the offset is added to an already absolute size).
* html::parser::merge never adds anything (merge_idle). append_inserted_tokens leaves an element active after its end tag was inserted (insert_ends_twice).
* html::parser: an immediate element that is a group (<hr>, <frame>, <col>) opens a group up to the end of the enclosing one, as its end is itself; recursion is as deep as the number of such tags.
* langid.hpp: 34 codes have a name that stands for another code: 0x804 is zh-CN, zh-CN is 0x7804 (langid_code_partial, langid_lost).
* memory_file: get and set assert offset + sizeof < size, so the last number of a file is refused in debug builds (get_last_asserts). read_str of a truncated string leaves the old text in the variable; line 3653 repeats the condition of 3645, so what is there is never given (readStr_stale).
* wav.hpp 514, 543: read_cues with a block end behind the end of the file - the default fpos_max - never ends: at the end of the file find returns false, and the loop goes on (cuesLoop_eof).
* wav.hpp 613-617: remove_cues is inverted: the chunks in the list of removable ones are copied, the others are dropped (remove_cues_inverted, for all files of chunks); the recursion into upper-case chunks is dead code, as all four removable identifiers are lower-case (removable_lower).
* wav.hpp 525: read_cues resizes the vector without clearing it, cues read into a vector that was not empty keep old texts (stale_texts).
* wav.hpp 483: find_first pads the position in the file instead of the size of the chunk, so it goes astray for chunks at odd positions (find_first_odd).
* C127: basic_sys::write and socket::write loop forever if the OS keeps accepting 0 bytes without an error (sys_write_hangs).
* C128: diag_file::lock, unlock and truncate read m_files[0] without checking the collection is not empty (diag_empty).
* C130: charset_encoder::strcat never calls iconv with a null input at the end, so the shift sequence of UTF-7 is missing at the end of the text and its state leaks to the next conversion (encoder_shift); string_views with a zero are cut at it (encoder_zero).
* C131: zlib_reader loops forever on data behind the end of the compressed stream (and on Z_NEED_DICT) (zlib_trailing_hangs); a cut-off stream is read as if complete (zlib_truncated); ~zlib_writer throws, i.e. terminates, if the sink fails (zlib_close_terminates).
* operator= of objects owning a system handle closes the old handle before it duplicates the new one: if dup fails, the object keeps a closed handle and closes it again, which may be another object's by then (Sys/Handles.lean handle_assign_fails; close the same, handle_close_fails).
* vappendf compares the length with <= the size of the buffer: a narrow text of exactly 1024 characters ends in a NUL instead of its last character (Str/Format.lean narrow_exact); a longer narrow text throws, since vsnprintf does not set errno to EOVERFLOW (narrow_long); strcatftime and to_str never end for an empty text (ftime_empty_fails); to_str frees an array with delete (chrono.hpp 434, 467; not modelled).
* strupr turns lower-case letters into the all-ones character, as toupper does (Str/Case.lean strupr_wrong).
* file::lock (stream.hpp 2884) sets state ok after the inner failure was recorded: a refused lock is reported as success (file_lock_silent). basic_file::read_remainder (817-828) behind the end computes size - position modulo 2^64 and the vector throws length_error, uncaught (file_remainder_throws). set_atime/set_mtime (3033-3068) pass the tick count of the clock (nanoseconds) as seconds (file_date_wrong).
* memory_file::save (stream.hpp 3526) ignores a failed truncate: the tail of the older, longer file stays and nothing is reported (save_untruncated).
* memory_file copy assignment (stream.hpp 3343-3366) frees before it allocates and throws with m_data null and the old m_size: using the object after catching bad_alloc reads from null (assign_without_memory).
* locale.hpp create_locale: newlocale is given LC_GLOBAL_LOCALE as its base object, which POSIX leaves undefined.
* cache::load_cache (stream.hpp 2151-2163) takes a failed read for an empty block: a following write says ok and the flush overwrites everything before it in the block with uninitialised memory (cache_read_failure_garbage); happens with a source opened only for writing or a read interrupted by a signal.
* cache::write_cache (stream.hpp 2165-2171) ignores a failed seekbeg and writes where the file happens to stand; cache::write 1970-1972 tests its own state instead of the source's after seekbeg; load_cache sets region.start before the seek that may fail.
* C141: `&#x110000;` decoded to UTF-16 gives U+10000 (ucs4_to_surrogate_pair masks); numbers are not checked against U+10FFFF.
* * C142: ignore() and operator >> on a stream that ends inside a record throw when fewer than 16 bytes were to be skipped, and set eof otherwise; operator >> of a std::istream lets the data's operator read the records that follow.
* * C143: strncoll (string.hpp 1363-1391) does not apply strnlen to its counts: reads beyond zero-terminated texts, and equal texts in arrays of different size compare as different.
* C144: search starts at every code unit and so finds lt inside &lt;. The character entity &#0; (and &#abc;), whose meaning is the empty text, passes as an alphanumeric character in sgml_url_username_char, sgml_url_path_char, sgml_dns_domain_char (IDN): the loops over its characters are vacuous. sgml_any_cp takes an unknown entity whole where the others take only the ampersand.
* C145: sgml_scientific_numeral reads 0.&#53; as 0.00005 because decimal->interval.size() (2187) counts code units, not digits; sgml_integer10ts does not group 1,23&#52; because interval.size() == 3 (1428) counts code units; digit_count is in code units as well; sgml_iban, sgml_creditor_reference and sgml_si_reference read code units and find nothing if a character is an entity; sgml_phone_number::value holds the SGML source.
* C146: `buffer::flush` over a `limiter` that has room for part of the pending data reports ok with the rest still in the buffer (`stack_flush_ok_with_data_left`): the limiter's short write leaves state ok and `flush_write` copies that.
* C148: operator >>(std::istream&, record) gives the data operator the unlimited stream (TODO in the code): a greedy operator takes the following records and leaves the stream failed (std_read_greedy); ignore of a last record without padding fails on std::istream but succeeds on a file (std_ignore_cut).
* C149: sequential_stream::read does not come to an end on an ISequentialStream that reports its end by S_OK with 0 bytes (seq_read_hangs).
* C150: normalizecat passes count_src + 1 as capacity of count_src characters: a normalized form longer by exactly one character has its last character replaced by zero (normalizecat_one_longer).
* IBAN check digits outside 02..98 are accepted: NO98 0000 0000 022 and NO01 0000 0000 022 are both valid (two_check_digits).
* C154: modulus 11 as the code (and the standard) has it does not reveal errors of the eleventh digit from the right, nor all errors of numbers whose check digit is 0 (si_eleventh, si_zero).
* C156: 43 entities keep an ISO 8879 meaning that HTML 5 changed (older_meaning), e.g. lang is U+2329 and not U+27E8; b.omega stands for omega with tonos (U+03CE).
* C158: a base64_reader below a buffer or a zlib_reader loses up to two bytes of the end (base64_below_loses): compressed data kept in base64 can come back truncated, and without an error.
* C159: seqStream's flush in the model was the identity; the code's is basic::flush (state becomes ok even after a failed write). basic::flush of memory_file, fifo, socket and sequential_stream hides a failure: after a failed write followed by flush, state() is ok.
* - C56 (progress.hpp 235-320): a global_progress that was given a global range but no section range reports 1 for every value, even when 1 is outside of the global range (no_section).
* C160: css_escape doubles a backslash, but the parser takes the second of two backslashes before a quote for an escape: a string that ends in a backslash runs on to the next quote. A query parameter with an empty name is not matched, and what follows it is left out.
* C161: header values are not folded or escaped by anything in the library: a line feed in a value is the end of the header.
* C162 A cookie or media type is read only as far as its values are tokens: one with a semicolon must be written in quotes (cookie_cut).
* C163 http_weighted_value<http_token> reads a token that begins with an asterisk as an asterisk and another value (choice_star).
* C164: with more formats allowed, a date is read by the first in the fixed order DMY, MDY, YMD, YM, MY, DM, MD that makes a calendar day of the numbers, so that 01/02/2024 is DMY whenever that is allowed.
* C165: after an IPv6 address in the short form a single colon is swallowed (3195 ff.), which is why no colon may follow.
* C166: where absolute names are allowed, the full stop of a sentence after a host name is taken as part of the name.

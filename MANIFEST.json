{
 "claims": [
  {
   "property": "C01",
   "status": "proved",
   "theorems": [
    "Verif.Ring.ring_fifo",
    "Verif.Ring.ring_load"
   ],
   "note": "all capacities N>0, all interleavings of producer/consumer/quit events"
  },
  {
   "property": "C02",
   "status": "proved",
   "theorems": [
    "Verif.Ring.ring_windows",
    "Verif.Ring.ring_windows_disjoint"
   ],
   "note": ""
  },
  {
   "property": "C03",
   "status": "proved",
   "theorems": [
    "Verif.Ring.ring_quit",
    "Verif.Ring.ring_quit_sticky",
    "Verif.Ring.ring_blocking"
   ],
   "note": "the C++ memory model and real condition variables are abstracted to atomic monitor steps"
  },
  {
   "property": "C04",
   "status": "proved",
   "theorems": [
    "Verif.Ring.ring_no_lost_wakeup",
    "Verif.Ring.ring_notification_wakes",
    "Verif.Ring.ring_no_deadlock",
    "Verif.Ring.ring_third_thread_deadlock"
   ],
   "note": "holds for one producer + one consumer (+ quit); ring_third_thread_deadlock shows it fails with a further thread in sync()"
  },
  {
   "property": "C05",
   "status": "proved",
   "theorems": [
    "Verif.Hex.hex_roundtrip"
   ],
   "note": ""
  },
  {
   "property": "C06",
   "status": "proved",
   "theorems": [
    "Verif.Hex.hex_decode_denotes",
    "Verif.Hex.hex_noise",
    "Verif.Hex.hex_nul",
    "Verif.Hex.hex_sizes"
   ],
   "note": ""
  },
  {
   "property": "C07",
   "status": "proved",
   "theorems": [
    "Verif.B64.b64_encode_rfc"
   ],
   "note": ""
  },
  {
   "property": "C08",
   "status": "proved",
   "theorems": [
    "Verif.B64.b64_decode_inverts",
    "Verif.B64.b64_roundtrip",
    "Verif.B64.b64_is_last_once",
    "Verif.B64.b64_nul"
   ],
   "note": ""
  },
  {
   "property": "C09",
   "status": "proved",
   "theorems": [
    "Verif.B64.b64_sizes",
    "Verif.B64.enc_index_ok"
   ],
   "note": ""
  },
  {
   "property": "C10",
   "status": "partial",
   "theorems": [
    "Verif.B64.b64_writer_text",
    "Verif.B64.b64_writer_lines",
    "Verif.B64.b64_stream_roundtrip_partial",
    "Verif.B64.b64_reader_loses_tail",
    "Verif.B64.b64_reader_drops_padded_block",
    "Verif.B64.b64_writer_failure_count",
    "Verif.B64.b64_writer_exact"
   ],
   "note": "the code violates the claim: base64_reader loses the bytes of the final padded block when >=3 bytes are requested (base64.hpp 420-428), proved by counterexample; round trip proved when total length is a multiple of 3 or requests are <=2 bytes"
  },
  {
   "property": "C100",
   "status": "proved",
   "theorems": [
    "Verif.Html.escape_safe",
    "Verif.Html.escape_min_safe",
    "Verif.Html.escape_min_chars",
    "Verif.Html.escape_plain"
   ],
   "note": "no-break space of UTF-8 in char is a finding: escape_utf8_nbsp"
  },
  {
   "property": "C101",
   "status": "partial",
   "theorems": [
    "Verif.Html.url_unescape_partial",
    "Verif.Html.url_round_trip",
    "Verif.Html.url_escape_writes",
    "Verif.Html.url_reads_unique",
    "Verif.Html.url_unescape_overrun"
   ],
   "note": "url_unescape reads behind the limit when the text ends in the middle of an escape and is not terminated; the round trip and url_escape are complete"
  },
  {
   "property": "C102",
   "status": "partial",
   "theorems": [
    "Verif.Html.css_unescape_partial",
    "Verif.Html.css_readable",
    "Verif.Html.css_round_trip",
    "Verif.Html.css_reads_one",
    "Verif.Html.css_unescape_hangs",
    "Verif.Html.css_unescape_past_end",
    "Verif.Html.css_unescape_six"
   ],
   "note": "the round trip is complete; css_unescape alone fails for every text that ends in a lone backslash, proved in css_unescape_hangs and css_unescape_past_end"
  },
  {
   "property": "C103",
   "status": "partial",
   "theorems": [
    "Verif.Html.element_code_partial",
    "Verif.Html.element_code_char",
    "Verif.Html.element_code_known"
   ],
   "note": "For char, complete; wider characters that do not fit in char are truncated, so that U+0161 is taken for a (element_code_truncates)."
  },
  {
   "property": "C104",
   "status": "proved",
   "theorems": [
    "Verif.Html.span_spec",
    "Verif.Html.kinds_spec",
    "Verif.Html.kinds_apart",
    "Verif.Html.span_optional",
    "Verif.Html.span_immediate",
    "Verif.Html.may_contain_unknown",
    "Verif.Html.may_contain_script",
    "Verif.Html.may_contain_parts",
    "Verif.Html.may_contain_text",
    "Verif.Html.is_uri_spec",
    "Verif.Html.is_localizable_spec"
   ],
   "note": "The tables are finite and the kernel checks them entry by entry; attribute names are all texts."
  },
  {
   "property": "C105",
   "status": "partial",
   "theorems": [
    "Verif.Html.doc_order",
    "Verif.Html.doc_tags",
    "Verif.Html.doc_whole_partial",
    "Verif.Html.doc_loses_text"
   ],
   "note": "That nothing is lost is proved for texts without marked sections; before a marked section the code loses text (doc_loses_text). The locale is a parameter; tags are those of the specification of C98-C100."
  },
  {
   "property": "C106",
   "status": "proved",
   "theorems": [
    "Verif.Html.doc_parent",
    "Verif.Html.doc_end",
    "Verif.Html.doc_start",
    "Verif.Html.doc_allowed",
    "Verif.Html.doc_nested",
    "Verif.Html.doc_immediate",
    "Verif.Html.doc_open"
   ],
   "note": "For every history; doc_open for documents that were appended to, with or without finalize. Findings: doc_inner_open, doc_table_row, doc_unknown_end."
  },
  {
   "property": "C107",
   "status": "proved",
   "theorems": [
    "Verif.Html.doc_innermost"
   ],
   "note": "Elements are told apart by their codes; unknown elements are all one (finding doc_unknown_end)."
  },
  {
   "property": "C108",
   "status": "proved",
   "theorems": [
    "Verif.Html.doc_opaque",
    "Verif.Html.doc_text",
    "Verif.Html.doc_text_final"
   ],
   "note": "doc_text_final: the text that finalize adds, without marked sections."
  },
  {
   "property": "C109",
   "status": "partial",
   "theorems": [
    "Verif.Html.doc_ends_partial",
    "Verif.Html.doc_finalize_special"
   ],
   "note": "Missing: tags as </a/>, at which the parser of tags loops for ever (htmlTag_stuck), and documents to which text is appended after finalize (finding doc_finalize_special)."
  },
  {
   "property": "C11",
   "status": "partial",
   "theorems": [
    "vq_deque_partial",
    "vq_push_index",
    "vq_push_front_corrupts",
    "vq_push_front_wrong"
   ],
   "note": "push_back/pop_back/pop_front/clear refine a bounded deque for every history; push_front is modelled with its 64-bit wrap and only correct when head>0 or capacity divides 2^64: counterexample theorems show the corruption"
  },
  {
   "property": "C110",
   "status": "proved",
   "theorems": [
    "Verif.Html.doc_cdata",
    "Verif.Html.doc_rcdata",
    "Verif.Html.doc_ignore"
   ],
   "note": "All text before the section has to be consumed. The content holds no ]]>. Finding: doc_ignore_nested."
  },
  {
   "property": "C111",
   "status": "partial",
   "theorems": [
    "Verif.Html.doc_append_nil",
    "Verif.Html.doc_assign",
    "Verif.Html.doc_assign_spec_partial",
    "Verif.Html.doc_pieces"
   ],
   "note": "doc_assign_spec_partial: without %, and without tags at which the parser loops. Finding: pieces are not the same as the whole (doc_pieces)."
  },
  {
   "property": "C112",
   "status": "proved",
   "theorems": [
    "Verif.Html.doc_charset",
    "Verif.Html.doc_charset_one"
   ],
   "note": "The names of character sets are mapped by an arbitrary function (charset_from_name)."
  },
  {
   "property": "C113",
   "status": "proved",
   "theorems": [
    "Verif.Html.doc_entities",
    "Verif.Html.doc_replace",
    "Verif.Html.doc_entity_quotes"
   ],
   "note": "Defect: quotes belong to the value, which ends at white space: doc_entity_quotes."
  },
  {
   "property": "C114",
   "status": "proved",
   "theorems": [
    "Verif.Html.token_tag_shape",
    "Verif.Html.token_tag_chars",
    "Verif.Html.token_tag_length",
    "Verif.Html.token_tag_read",
    "Verif.Html.token_tag_inj",
    "Verif.Html.token_tag_other",
    "Verif.Html.token_tag_total",
    "Verif.Html.token_tag_forged"
   ],
   "note": "token_tag_forged: any text that holds the marks is read as a token, whatever the number in it (defect)."
  },
  {
   "property": "C115",
   "status": "partial",
   "theorems": [
    "Verif.Html.relink_partial",
    "Verif.Html.relink_injects",
    "Verif.Html.relink_forged",
    "Verif.Html.relink_unended",
    "Verif.Html.relink_frames",
    "Verif.Html.relink_map_doubled"
   ],
   "note": "Proved for every document that is Linkable, wherever the tokens are; the rest is false of the code: marks in texts are taken for tokens, an unended code/script/style dereferences null, quotes in values are not escaped, map points of later texts are displaced."
  },
  {
   "property": "C116",
   "status": "proved",
   "theorems": [
    "Verif.Html.switching_nested",
    "Verif.Html.switching_least",
    "Verif.Html.switch_tokens"
   ],
   "note": ""
  },
  {
   "property": "C117",
   "status": "proved",
   "theorems": [
    "Verif.Html.insert_tokens",
    "Verif.Html.inserting_nested",
    "Verif.Html.insert_ends_twice"
   ],
   "note": "insert_ends_twice: an inserted end tag leaves its element active, so it is ended once more (observation)."
  },
  {
   "property": "C118",
   "status": "partial",
   "theorems": [
    "Verif.Html.merge_union_partial",
    "Verif.Html.merge_idle"
   ],
   "note": "merge never adds a token: the test for the end of the list is inside a loop that stops there. Only the case where b is contained in a gives a union."
  },
  {
   "property": "C119",
   "status": "proved",
   "theorems": [
    "Verif.Html.parse_told",
    "Verif.Html.relink_map_doubled"
   ],
   "note": "The points of where sequences begin are right; the points of entities inside later texts are not (relink_map_doubled)."
  },
  {
   "property": "C12",
   "status": "proved",
   "theorems": [
    "vq_copy_move",
    "vq_copy_history"
   ],
   "note": ""
  },
  {
   "property": "C120",
   "status": "partial",
   "theorems": [
    "Verif.Locale.langid_from_spec",
    "Verif.Locale.name_from_spec",
    "Verif.Locale.langid_same",
    "Verif.Locale.langid_name",
    "Verif.Locale.langid_code_partial",
    "Verif.Locale.langid_lost",
    "Verif.Locale.langid_parts"
   ],
   "note": "Full statement except that code -> name -> code fails for the 34 listed codes (a defect of the tables, shown by langid_lost); langid_code_partial says exactly for which."
  },
  {
   "property": "C121",
   "status": "proved",
   "theorems": [
    "Verif.Stream.MemoryFile.memory_values",
    "Verif.Stream.MemoryFile.readNum_there",
    "Verif.Stream.MemoryFile.readNum_short",
    "Verif.Stream.MemoryFile.readStr_there",
    "Verif.Stream.MemoryFile.readStr_short",
    "Verif.Stream.MemoryFile.data_bad",
    "Verif.Stream.MemoryFile.set_get",
    "Verif.Stream.MemoryFile.get_last_asserts",
    "Verif.Stream.MemoryFile.readStr_stale"
   ],
   "note": "Also shown: the assertion of get/set fails for the last number of a file, and a truncated string leaves the variable as it was."
  },
  {
   "property": "C122",
   "status": "proved",
   "theorems": [
    "Verif.Stream.MemoryFile.write_stream_amount",
    "Verif.Stream.MemoryFile.write_stream_all",
    "Verif.Stream.MemoryFile.load_spec",
    "Verif.Stream.MemoryFile.save_spec"
   ],
   "note": "write_stream_amount is for a managed file with a working allocator; write_stream_all for any. File sizes below 2^61 bytes."
  },
  {
   "property": "C123",
   "status": "proved",
   "theorems": [
    "Verif.Record.Wav.header_round_trip",
    "Verif.Record.Wav.format_round_trip",
    "Verif.Record.Wav.data_round_trip",
    "Verif.Record.Wav.silence_round_trip",
    "Verif.Record.Wav.cues_round_trip",
    "Verif.Record.Wav.ltxt_round_trip",
    "Verif.Record.Wav.label_round_trip",
    "Verif.Record.Wav.ids_spelled"
   ],
   "note": "Every chunk type, every value that fits, any surroundings. Also: what a text with zeros becomes (label_cut), and that a truncated cue chunk gives the whole cues it has (cues_truncated)."
  },
  {
   "property": "C124",
   "status": "proved",
   "theorems": [
    "Verif.Record.Wav.write_cues",
    "Verif.Record.Wav.read_cues",
    "Verif.Record.Wav.cues_written_are_read"
   ],
   "note": "For a block that ends within the file, an even position, and an empty vector. Defects proved beside it: with a block end behind the end of the file, such as the default one, read_cues never ends (cuesLoop_eof); a vector that was not empty keeps stale texts (stale_texts)."
  },
  {
   "property": "C125",
   "status": "proved",
   "theorems": [
    "Verif.Record.Wav.find_first_found",
    "Verif.Record.Wav.find_first_none",
    "Verif.Record.Wav.find_content_found"
   ],
   "note": "For chunks at even positions; find_first_odd shows that at odd positions the padding is taken of the position instead of the size."
  },
  {
   "property": "C126",
   "status": "partial",
   "theorems": [
    "Verif.Record.Wav.remove_cues_inverted"
   ],
   "note": "The property is false of the code: the test is inverted. Proved instead, for all files of chunks: the output has exactly the chunks of the cues and their texts, and none of the others."
  },
  {
   "property": "C127",
   "status": "proved",
   "theorems": [
    "Verif.Stream.sys_read",
    "Verif.Stream.sys_write",
    "Verif.Stream.sys_write_ends",
    "Verif.Stream.sys_read_full",
    "Verif.Stream.sys_source",
    "Verif.Stream.sys_reliable"
   ],
   "note": "The OS is an arbitrary state machine of partial transfers. Defect recorded as sys_write_hangs: an OS write that keeps accepting nothing loops forever."
  },
  {
   "property": "C128",
   "status": "proved",
   "theorems": [
    "Verif.Stream.diag_call",
    "Verif.Stream.diag_history"
   ],
   "note": "Defect recorded as diag_empty: with no file, lock/unlock/truncate index an empty collection."
  },
  {
   "property": "C129",
   "status": "proved",
   "theorems": [
    "Verif.Locale.charset_from_name",
    "Verif.Locale.charset_encoding",
    "Verif.Locale.charset_system"
   ],
   "note": "POSIX branch, both byte orders."
  },
  {
   "property": "C13",
   "status": "proved",
   "theorems": [
    "interval_int",
    "interval_int_shift",
    "interval_unsigned",
    "interval_unsigned_shift",
    "interval_unsigned_wraps"
   ],
   "note": "Translation of membership for unsigned types holds as long as the ends do not wrap"
  },
  {
   "property": "C130",
   "status": "proved",
   "theorems": [
    "Verif.Locale.encoder_strcat",
    "Verif.Locale.encoder_parts",
    "Verif.Locale.encoder_roundtrip"
   ],
   "note": "POSIX branch; iconv is any converter with state that meets its contract (Converts), which demo_converts shows can be met. Defects: encoder_shift (final shift state neither written nor reset), encoder_zero (a string with a zero is cut there although its length is given)."
  },
  {
   "property": "C131",
   "status": "proved",
   "theorems": [
    "Verif.Stream.zlib_written",
    "Verif.Stream.zlib_readback",
    "Verif.Stream.zlib_roundtrip",
    "Verif.Stream.zlib_write_short"
   ],
   "note": "zlib itself is an automaton with the contract of its manual (DeflaterOk, InflaterOk; both met by an instance). Defects: zlib_trailing_hangs, zlib_truncated, zlib_close_terminates."
  },
  {
   "property": "C132",
   "status": "partial",
   "theorems": [
    "Verif.Sys.handles_owned_partial",
    "Verif.Sys.handles_no_leak_partial",
    "Verif.Sys.handles_apart",
    "Verif.Sys.handles_moved"
   ],
   "note": "False in the code after an assignment or close that throws (handle_assign_fails, handle_close_fails): histories with those errors are excluded by Op.Spared; everything else is proved for all histories."
  },
  {
   "property": "C133",
   "status": "partial",
   "theorems": [
    "Verif.Format.append_wide",
    "Verif.Format.append_narrow_partial",
    "Verif.Format.append_error",
    "Verif.Format.append_error_wide",
    "Verif.Format.append_keeps",
    "Verif.Format.sprintf_wide",
    "Verif.Format.ftime_appends_partial",
    "Verif.Format.to_str_partial"
   ],
   "note": "Wide text: complete. Missing: narrow texts of 1024 characters and more, false of the code (narrow_exact, narrow_long), and dates with empty text, false (ftime_empty_fails). The C library's formatting is a parameter with the contract of C17/POSIX."
  },
  {
   "property": "C134",
   "status": "partial",
   "theorems": [
    "Verif.Str.strlwr_spec",
    "Verif.Str.strcase_locale",
    "Verif.Str.strlwr_string",
    "Verif.Str.strlwr_again",
    "Verif.Str.strupr_partial"
   ],
   "note": "strlwr: complete. strupr without locale is false of the code for every text with a lower-case letter (strupr_wrong); strupr_partial: texts without."
  },
  {
   "property": "C135",
   "status": "proved",
   "theorems": [
    "Verif.RefPtr.refptr_owned",
    "Verif.RefPtr.refptr_no_leak",
    "Verif.RefPtr.refptr_sets",
    "Verif.RefPtr.sanitized",
    "Verif.RefPtr.blob_sanitized"
   ],
   "note": "Deleters do not throw. Compiler elimination of the final memset is outside of the model."
  },
  {
   "property": "C136",
   "status": "partial",
   "theorems": [
    "Verif.Stream.Disk.file_open",
    "Verif.Stream.Disk.file_open_invalid",
    "Verif.Stream.Disk.file_read",
    "Verif.Stream.Disk.file_read_not",
    "Verif.Stream.Disk.file_write",
    "Verif.Stream.Disk.file_write_not",
    "Verif.Stream.Disk.file_bytes",
    "Verif.Stream.Disk.file_round_trip",
    "Verif.Stream.Disk.file_seek",
    "Verif.Stream.Disk.file_tell",
    "Verif.Stream.Disk.file_size",
    "Verif.Stream.Disk.file_truncate",
    "Verif.Stream.Disk.file_unlock",
    "Verif.Stream.Disk.file_lock_partial",
    "Verif.Stream.Disk.file_lock_silent",
    "Verif.Stream.Disk.file_remainder_partial",
    "Verif.Stream.Disk.file_remainder_throws",
    "Verif.Stream.Disk.file_date_scaled",
    "Verif.Stream.Disk.file_date_wrong",
    "Verif.Stream.Disk.file_lock_range"
   ],
   "note": "Locking claims success when the system refused (file_lock_silent); read_remainder behind the end throws (file_remainder_throws); set_mtime and set_atime hand clock ticks to the system as seconds (file_date_wrong). The rest is proved in full."
  },
  {
   "property": "C137",
   "status": "partial",
   "theorems": [
    "Verif.Stream.Disk.disk_source",
    "Verif.Stream.Disk.load_file",
    "Verif.Stream.Disk.save_file_partial",
    "Verif.Stream.Disk.save_load",
    "Verif.Stream.Disk.save_untruncated",
    "Verif.Stream.Disk.saveMode_of",
    "Verif.Stream.Disk.loadMode_of",
    "Verif.Stream.Disk.mode_flags"
   ],
   "note": "Only where truncating succeeds: save does not look at the state after truncate (save_untruncated)."
  },
  {
   "property": "C138",
   "status": "partial",
   "theorems": [
    "Verif.Stream.MemoryOwner.memory_files_owned",
    "Verif.Stream.MemoryOwner.memory_files_free_all",
    "Verif.Stream.MemoryOwner.memory_files_fit_partial",
    "Verif.Stream.MemoryOwner.assign_without_memory"
   ],
   "note": "Ownership is proved in full. That files fit is proved unless a copy assignment gets no memory: it then leaves the old size with a null pointer (assign_without_memory)."
  },
  {
   "property": "C139",
   "status": "proved",
   "theorems": [
    "Verif.HashStream.hashes_written",
    "Verif.HashStream.hash_read",
    "Verif.HashStream.hash_short",
    "Verif.HashStream.hash_failed",
    "Verif.HashStream.hashes_round_trip"
   ],
   "note": "sizes of values are a parameter (16, 20, 32 in the code)"
  },
  {
   "property": "C14",
   "status": "proved",
   "theorems": [
    "pool_no_duplication",
    "pool_lifo",
    "pool_empty"
   ],
   "note": ""
  },
  {
   "property": "C140",
   "status": "partial",
   "theorems": [
    "Verif.Stream.Cache.cache_no_loss_partial",
    "Verif.Stream.Cache.cache_recovers_partial",
    "Verif.Stream.Cache.cache_flush_partial",
    "Verif.Stream.Cache.cache_close_partial",
    "Verif.Stream.Cache.cached_open_partial",
    "Verif.Stream.Cache.runF_total",
    "Verif.Stream.Cache.cache_read_failure_garbage"
   ],
   "note": "for histories in which the cache is transparent at all (C39), and where only writing fails; where reading fails the code writes uninitialised memory over the file (cache_read_failure_garbage)"
  },
  {
   "property": "C141",
   "status": "partial",
   "theorems": [
    "Verif.Sgml.str2sgml16_encodes",
    "Verif.Sgml.str2sgml16_same",
    "Verif.Sgml.str2sgml16_safe",
    "Verif.Sgml.sgml2str16_decodes_partial",
    "Verif.Sgml.sgml2str16_same_partial",
    "Verif.Sgml.sgml16_round_trip_partial",
    "Verif.Sgml.sgml16_bad_number",
    "Verif.Sgml.wide_fits"
   ],
   "note": "Partial because the code decodes numbers beyond U+10FFFF to surrogates of another character (sgml16_bad_number), and because of the entities of C60 that occur twice."
  },
  {
   "property": "C142",
   "status": "partial",
   "theorems": [
    "Verif.Record.stream_read_record",
    "Verif.Record.stream_ignore",
    "Verif.Record.stream_ignore_short",
    "Verif.Record.stream_write_record",
    "Verif.Record.stream_read_records",
    "Verif.Record.stream_skim_records",
    "Verif.Record.stream_write_records",
    "Verif.Record.stream_records_round_trip",
    "Verif.Record.istream_read_record_partial",
    "Verif.Record.istream_reads_past",
    "Verif.Record.stream_no_size"
   ],
   "note": "Proved for stdex streams. For std::istream only with an operator that stops by itself: istream_reads_past shows the defect (the code's own TODO). The temporary memory_file of operator << is the abstract file (C35)."
  },
  {
   "property": "C143",
   "status": "partial",
   "theorems": [
    "Verif.Str.strcoll_spec",
    "Verif.Str.strncoll_partial",
    "Verif.Str.strncoll_whole",
    "Verif.Str.strncoll_reads_on",
    "Verif.Str.strtod_spec",
    "Verif.Str.strtod_end"
   ],
   "note": "strncoll only when the texts fill the counts; strncoll_reads_on shows the defect. The collation and the C library's strtod are parameters."
  },
  {
   "property": "C144",
   "status": "proved",
   "theorems": [
    "tree_mirrors",
    "sgml_leaves",
    "sgml_set_mirrors",
    "sgml_string_mirrors",
    "sgml_any_mirrors",
    "sgml_url_chars",
    "sgmlDnsChar_spec",
    "integer_mirrors",
    "dnsName_mirrors",
    "urlPath_mirrors",
    "url_mirrors",
    "email_mirrors",
    "ipv4_mirrors",
    "ipv6_mirrors",
    "sgml_url_parts",
    "sgml_url_decoded",
    "stands_of",
    "stands_plain",
    "surl_ok",
    "sgml_search_inside"
   ],
   "note": "For match; search starts inside entities (sgml_search_inside is the counterexample). Entities that stand for no character (&#0;) are outside the hypothesis Stands; sgml_url_chars says what the character parsers make of them."
  },
  {
   "property": "C145",
   "status": "partial",
   "theorems": [
    "integer_mirrorsV",
    "roman_mirrors",
    "fraction_mirrors",
    "score_mirrors",
    "signed_mirrors",
    "mixed_mirrors",
    "monetary_mirrors",
    "scientific_mirrors_partial",
    "sgml_sci_decoded_partial",
    "integerTs_mirrors_partial",
    "date_mirrors",
    "time_mirrors",
    "angle_mirrors",
    "emoticon_mirrors",
    "chem_mirrors",
    "phone_mirrors",
    "sgml_date_decoded",
    "sciS_ok",
    "sgml_decimals_scaled",
    "sgml_groups_lost",
    "sgml_iban_entities"
   ],
   "note": "False for decimals written as entities (the value is scaled by code units), for thousand groups with digits written as entities, and for IBANs with entities (counterexamples sgml_decimals_scaled, sgml_groups_lost, sgml_iban_entities); proved for all the others."
  },
  {
   "property": "C146",
   "status": "proved",
   "theorems": [
    "Verif.Stack.stack_is_source",
    "Verif.Stack.stack_read_all",
    "Verif.Stack.stack_reader",
    "Verif.Stack.stack_writes",
    "Verif.Stack.stack_round_trip",
    "Verif.Stack.fed_digest",
    "Verif.Stack.stack_taps",
    "Verif.Stack.stack_flush_ok_with_data_left"
   ],
   "note": "For every list of filters (converter, stream_hasher, buffer, limiter) over an arbitrary source / an arbitrary sink that accepts everything. The asynchronous reader/writer, zlib and the window are separate claims. When the limits have no room for the data, flush can report ok with data still in a buffer: stack_flush_ok_with_data_left."
  },
  {
   "property": "C147",
   "status": "proved",
   "theorems": [
    "Verif.Progress.chain_texts",
    "Verif.Progress.chain_cancel",
    "Verif.Progress.chain_cancel_stays",
    "Verif.Progress.chain_nested",
    "Verif.Progress.chain_set",
    "Verif.Progress.chain_lazy"
   ],
   "note": "Integer progress types of at least 32 bits; the products of range sizes must fit the type (the code's TODO), see section_overflow of C56. set_global_range/attach/detach are C56; the chain here is fixed."
  },
  {
   "property": "C148",
   "status": "proved",
   "theorems": [
    "Verif.Record.std_write_spec",
    "Verif.Record.std_close_result",
    "Verif.Record.std_ignore_spec",
    "Verif.Record.std_find_found",
    "Verif.Record.std_find_none",
    "Verif.Record.std_find_none_eof",
    "Verif.Record.std_find_ends",
    "Verif.Record.std_readId_spec",
    "Verif.Record.std_read_spec",
    "Verif.Record.std_roundtrip",
    "Verif.Record.std_read_greedy",
    "Verif.Record.std_ignore_cut"
   ],
   "note": "Standard streams are modelled by the C++ standard (sentry, eofbit, failbit); Lib ranges over what it leaves open. Findings: std_read_greedy (an operator that reads to the end takes the following records and leaves the stream failed; the code's TODO), std_ignore_cut (a last record without padding is reported as failure, unlike by the file overload)."
  },
  {
   "property": "C149",
   "status": "proved",
   "theorems": [
    "Verif.Stream.seq_read",
    "Verif.Stream.seq_read_ends",
    "Verif.Stream.seq_read_hangs",
    "Verif.Stream.seq_write",
    "Verif.Stream.seq_write_ends",
    "Verif.Stream.seq_source",
    "Verif.Stream.asp_read",
    "Verif.Stream.asp_write",
    "Verif.Stream.asp_close_flush"
   ],
   "note": "Windows branch. Finding: seq_read_hangs (an object that reports S_OK with no bytes at its end, as the documentation allows, keeps read in its loop for ever)."
  },
  {
   "property": "C15",
   "status": "proved",
   "theorems": [
    "checked_arith",
    "checked_arith_old"
   ],
   "note": ""
  },
  {
   "property": "C150",
   "status": "partial",
   "theorems": [
    "Verif.Str.normalizecat_partial",
    "Verif.Str.normalize_spec",
    "Verif.Str.normalizecat_one_longer",
    "Verif.Str.normalizecat_drops"
   ],
   "note": "False as stated: a form that is longer than the text by exactly one character loses its last character to a zero (normalizecat_one_longer: capacity count_src + 1 passed for count_src characters), and invalid text for which NormalizeString returns 0 is dropped (normalizecat_drops)."
  },
  {
   "property": "C151",
   "status": "proved",
   "theorems": [
    "Verif.Parser.shift_match",
    "Verif.Parser.shift_search",
    "Verif.Parser.shift_sub",
    "Verif.Parser.shift_integer",
    "Verif.Parser.shift_url",
    "Verif.Parser.same_text",
    "Verif.Parser.bol_shifts_not",
    "Verif.Parser.shift_value",
    "Verif.Parser.advances_takes",
    "Verif.Parser.shift_date",
    "Verif.Parser.shift_time",
    "Verif.Parser.shift_angle",
    "Verif.Parser.shift_emoticon",
    "Verif.Parser.shift_chem",
    "Verif.Parser.shift_ipv4",
    "Verif.Parser.shift_ipv6",
    "Verif.Parser.shift_roman",
    "Verif.Parser.shift_fraction",
    "Verif.Parser.shift_score",
    "Verif.Parser.shift_signed",
    "Verif.Parser.shift_mixed",
    "Verif.Parser.shift_monetary",
    "Verif.Parser.shift_scientific",
    "Verif.Parser.shift_thousands",
    "Verif.Parser.shift_dns",
    "Verif.Parser.shift_phone",
    "Verif.Parser.shift_path"
   ],
   "note": "For every grammar, prefix and text; the exception (bol at the cut) is a hypothesis and its necessity is shown by bol_shifts_not"
  },
  {
   "property": "C152",
   "status": "proved",
   "theorems": [
    "Verif.Parser.iban_error",
    "Verif.Parser.creditor_error",
    "Verif.Parser.check_digits_exist",
    "Verif.Parser.two_check_digits"
   ],
   "note": "Uses iban_spec and creditor_partial of C77 and arithmetic modulo 97, including the swap of the last check digit with the first digit of the number, which are not neighbours in the number that is checked"
  },
  {
   "property": "C153",
   "status": "proved",
   "theorems": [
    "Verif.Hash.CRC.crc_burst",
    "Verif.Hash.CRC.crc_two_bits",
    "Verif.Hash.CRC.crc_33_missed"
   ],
   "note": "Bursts by linearity and invertibility of the bit machine; two bits by its period, 2^32-1, which the kernel computes by repeated squaring of the 32x32 matrix (five exponents); crc_33_missed shows that 32 is the bound"
  },
  {
   "property": "C154",
   "status": "proved",
   "theorems": [
    "Verif.Parser.si_error",
    "Verif.Parser.si_eleventh",
    "Verif.Parser.si_zero"
   ],
   "note": "Model 01 with three parts is left out, where is_valid depends on an unrelated digit (C78)."
  },
  {
   "property": "C155",
   "status": "proved",
   "theorems": [
    "Verif.Stack.program_through_stack",
    "Verif.Stack.values_through_stacks",
    "Verif.Stack.records_through_stacks",
    "Verif.Stack.val_program",
    "Verif.Stack.recs_program",
    "Verif.Stack.hash_program",
    "Verif.Stack.mark_program"
   ],
   "note": ""
  },
  {
   "property": "C156",
   "status": "proved",
   "theorems": [
    "Verif.Sgml.html4_meaning",
    "Verif.Sgml.listed_meaning",
    "Verif.Sgml.sgml2str_entity",
    "Verif.Sgml.accented_meaning",
    "Verif.Sgml.older_meaning",
    "Verif.Sgml.bold_meaning"
   ],
   "note": "the lists are written from Python's html.entities and unicodedata, not from the header; older_meaning lists the 43 names (ISO 8879) whose meaning differs from HTML 5"
  },
  {
   "property": "C157",
   "status": "proved",
   "theorems": [
    "Verif.B64Pipe.program_through_base64",
    "Verif.B64Pipe.base64_reads",
    "Verif.B64Pipe.values_through_base64"
   ],
   "note": "base64_writer and base64_reader over an arbitrary stream, the composition with every pile of filters of C141; requests past the end of a padded text lose its tail (defect, C10)."
  },
  {
   "property": "C158",
   "status": "partial",
   "theorems": [
    "Verif.Tower.program_through_tower",
    "Verif.Tower.tower_is_source",
    "Verif.Tower.values_through_towers_partial",
    "Verif.Tower.values_through_base64_towers_partial",
    "Verif.Tower.base64_below_loses",
    "Verif.Tower.base64_codec",
    "Verif.Tower.base64_ok",
    "Verif.Tower.zlib_ok"
   ],
   "note": "Writing: any tower. Reading: any tower of filters and decompressions, and base64 on top of it. False of the code, and so missing: a base64 reader below a layer that reads in blocks loses the end of its text (base64_below_loses, from C10). The writers below are destroyed from the top down, and everything flushed once at the end; zlib is any library with the contract of C131. Hashes below a decompression are not looked at."
  },
  {
   "property": "C159",
   "status": "partial",
   "theorems": [
    "Verif.Ends.values_between_ends_partial",
    "Verif.Ends.values_between_ends_base64_partial",
    "Verif.Ends.write_end",
    "Verif.Ends.read_end",
    "Verif.Ends.opened_for_writing",
    "Verif.Ends.opened_for_reading",
    "Verif.Tower.program_through_tower_on",
    "Verif.Tower.tower_is_source_on",
    "Verif.Tower.values_through_towers_on_partial",
    "Verif.Tower.values_through_base64_towers_on_partial",
    "Verif.Ends.flush_hides_failure"
   ],
   "note": "values_* are for all towers but those with base64 below another layer: there the code loses the end (Verif.Tower.base64_below_loses). Ends: allocation succeeds, no transfer fails, fsync succeeds."
  },
  {
   "property": "C16",
   "status": "partial",
   "theorems": [
    "rol_spec_partial",
    "rol_compose",
    "rol_zero_undefined",
    "muldiv32_exact",
    "muldiv32_no_overflow",
    "muldivu32_exact",
    "muldiv64_exact",
    "muldivu64_exact",
    "muldiv64_overflows",
    "muldiv64_undefined"
   ],
   "note": "rol by 0 or 32 is a shift by the type width (undefined); everything else proved"
  },
  {
   "property": "C160",
   "status": "partial",
   "theorems": [
    "Verif.Html.url_comes_back",
    "Verif.Html.tag_comes_back",
    "Verif.Html.link_comes_back",
    "Verif.Html.css_comes_back_partial",
    "Verif.Html.css_url_comes_back_partial",
    "Verif.Html.css_import_comes_back_partial",
    "Verif.Html.css_comes_back_not",
    "Verif.Html.url_no_name"
   ],
   "note": "URLs, tags and links fully. Strings of styles for texts that do not end in a backslash; for these the string is shown not to come back (defect of the parser, C102). Parameters without a name are not seen by the parser (url_no_name)."
  },
  {
   "property": "C161",
   "status": "proved",
   "theorems": [
    "Verif.Parser.request_comes_back",
    "Verif.Parser.header_split",
    "Verif.Parser.requests_come_back"
   ],
   "note": "A line feed in a header's value splits it (header_split), as HTTP says: the caller has to refuse those."
  },
  {
   "property": "C162",
   "status": "proved",
   "theorems": [
    "Verif.Parser.type_written",
    "Verif.Parser.cookie_written",
    "Verif.Parser.quotes_tell",
    "Verif.Parser.cookie_cut"
   ],
   "note": "Values in quotes are text of characters from 32 on (bytes over 127 are refused: C88). cookie_cut shows why tokens are asked for."
  },
  {
   "property": "C163",
   "status": "proved",
   "theorems": [
    "Verif.Parser.choices_written",
    "Verif.Parser.encodings_written",
    "Verif.Parser.languages_written",
    "Verif.Parser.choice_star"
   ],
   "note": "The order of factors is any total order of what their double is computed from; scaled is one. Digits over 19 wrap (C92). choice_star shows why tokens may not begin with an asterisk."
  },
  {
   "property": "C164",
   "status": "proved",
   "theorems": [
    "Verif.Parser.date_written",
    "Verif.Parser.date_written_two",
    "Verif.Parser.date_written_closed",
    "Verif.Parser.time_written",
    "Verif.Parser.angle_written"
   ],
   "note": "Integers are sequences of the characters 0-9, the separator is one of a set of characters and the blank a character, as in the parsers' usual configuration; numbers are below the greatest of 64 bits (C79 says why)."
  },
  {
   "property": "C165",
   "status": "proved",
   "theorems": [
    "Verif.Parser.ipv4_written",
    "Verif.Parser.ipv6_written",
    "Verif.Parser.ipv6_written_short"
   ],
   "note": "Digits are the characters 0-9 and a-f, separators the characters . : and %. The property is about what is matched; the value of an IPv6 address is not filled in by the code (C76)."
  },
  {
   "property": "C166",
   "status": "proved",
   "theorems": [
    "Verif.Parser.dns_written",
    "Verif.Parser.email_written",
    "Verif.Parser.web_written",
    "Verif.Parser.mailto_written",
    "Verif.Parser.file_written",
    "Verif.Parser.login_written",
    "Verif.Parser.ftp_written"
   ],
   "note": "Labels of the name parser are characters (asciiDns), with international names for any classification that does not count the dot; e-mail addresses without them. Length limits of DNS are not checked by the code. URLs: hosts that are names not beginning with a digit; a user without a password in an ftp URL is left out, since the code does not find it (url_ftp_user)."
  },
  {
   "property": "C17",
   "status": "proved",
   "theorems": [
    "byteswap_reverses",
    "endian_conversions"
   ],
   "note": ""
  },
  {
   "property": "C18",
   "status": "partial",
   "theorems": [
    "MD5.md5_conforms_partial",
    "SHA1.sha1_conforms_partial",
    "MD5.md5_block_conforms",
    "SHA1.sha1_block_conforms",
    "MD5.md5_4gib_wrong_padding",
    "hash_c1_4gib"
   ],
   "note": "Proved for all messages and all chunkings with chunks below 2^32 bytes, down to full conformance of MD5 with RFC 1321 and SHA-1 with FIPS 180. A single call of >= 2^32 bytes miscounts the length (hash.hpp 90-92): counterexample theorem"
  },
  {
   "property": "C19",
   "status": "partial",
   "theorems": [
    "MD5.md5_conforms_partial",
    "MD5.md5_pad_spec",
    "SHA1.sha1_conforms_partial",
    "SHA1.sha1_pad_spec",
    "MD5.md5_4gib_wrong_padding"
   ],
   "note": "As C18"
  },
  {
   "property": "C20",
   "status": "proved",
   "theorems": [
    "crc32_conforms",
    "crc32_resume",
    "crc32_table_correct"
   ],
   "note": ""
  },
  {
   "property": "C21",
   "status": "proved",
   "theorems": [
    "stream_hasher_transparent",
    "stream_hasher_crc32",
    "stream_hasher_md5_sha1"
   ],
   "note": ""
  },
  {
   "property": "C22",
   "status": "proved",
   "theorems": [
    "digest_equality"
   ],
   "note": ""
  },
  {
   "property": "C23",
   "status": "proved",
   "theorems": [
    "Verif.Mapping.dst2src_iff",
    "Verif.Mapping.src2dst_iff",
    "Verif.Mapping.dst2src_correct",
    "Verif.Mapping.src2dst_correct",
    "Verif.Mapping.anchors_round_trip"
   ],
   "note": "For every strictly sorted anchor vector; includes absence of out-of-bounds accesses; size_t wrap-around modelled."
  },
  {
   "property": "C24",
   "status": "proved",
   "theorems": [
    "Verif.Mapping.dst2srcH_eq",
    "Verif.Mapping.src2dstH_eq",
    "Verif.Mapping.hinted_history"
   ],
   "note": "Any valid initial hint (index inside the vector); an out-of-range hint is undefined behaviour (hint_out_of_range)."
  },
  {
   "property": "C25",
   "status": "proved",
   "theorems": [
    "Verif.Mapping.invert_invert",
    "Verif.Mapping.dst2src_invert",
    "Verif.Mapping.src2dst_invert",
    "Verif.Mapping.beq_iff"
   ],
   "note": ""
  },
  {
   "property": "C26",
   "status": "proved",
   "theorems": [
    "Verif.Spinlock.mutual_exclusion",
    "Verif.Spinlock.acquire_only_free",
    "Verif.Spinlock.holder_sees_all",
    "Verif.Spinlock.lock_iff_held",
    "Verif.Spinlock.free_can_be_acquired"
   ],
   "note": "Unbounded number of threads; relaxed loads may return anything; release/acquire visibility by views."
  },
  {
   "property": "C27",
   "status": "proved",
   "theorems": [
    "Verif.Watchdog.fires_only_when_silent",
    "Verif.Watchdog.fires_once",
    "Verif.Watchdog.one_callback_per_timeout",
    "Verif.Watchdog.quiet_after_destructor",
    "Verif.Watchdog.no_lost_wakeup",
    "Verif.Watchdog.fires_when_silent",
    "Verif.Watchdog.quit_leads_to_done"
   ],
   "note": "For executions with fewer than 2^64 resets (m_phase wraps). A callback may still run after the destructor has begun (callback_after_quit_possible), never after it returned."
  },
  {
   "property": "C28",
   "status": "partial",
   "theorems": [
    "Verif.Stream.MemoryFile.refines_abstract_file_partial",
    "Verif.Stream.MemoryFile.write_succeeds",
    "Verif.Stream.MemoryFile.write_seek_read",
    "Verif.Stream.MemoryFile.read_beyond_end_ub",
    "Verif.Stream.MemoryFile.gap_shows_deleted_byte"
   ],
   "note": "Refinement of an abstract file for every history (with allocation failures anywhere) that accesses the file with the cursor not beyond its end. Missing: accesses after seeking beyond the end, where the code has undefined behaviour (read_beyond_end_ub) or exposes stale/uninitialised bytes (gap_shows_deleted_byte)."
  },
  {
   "property": "C29",
   "status": "partial",
   "theorems": [
    "Verif.Stream.MemoryFile.stays_inside_partial",
    "Verif.Stream.MemoryFile.reserve_ok",
    "Verif.Stream.MemoryFile.reserve_succeeds",
    "Verif.Stream.MemoryFile.put_ok",
    "Verif.Stream.MemoryFile.copy_ok",
    "Verif.Stream.MemoryFile.move_ok",
    "Verif.Stream.MemoryFile.failed_truncate_breaks_size",
    "Verif.Stream.MemoryFile.reserve_wraps"
   ],
   "note": "Holds for the histories of C28; writes are memory safe wherever the cursor is (put_ok). Missing: read beyond the end (reads outside of the block), truncate beyond a fixed buffer (leaves size > reserved), reserve of more than about 0.8*2^64 bytes (wraps)."
  },
  {
   "property": "C30",
   "status": "proved",
   "theorems": [
    "Verif.Stream.Fifo.fifo_is_queue",
    "Verif.Stream.Fifo.lossless"
   ],
   "note": ""
  },
  {
   "property": "C31",
   "status": "partial",
   "theorems": [
    "Verif.Stream.read_array_counts_partial",
    "Verif.Stream.read_array_counts_started",
    "Verif.Stream.read_array_counts_incomplete_element",
    "Verif.Stream.read_array_full"
   ],
   "note": "Proved for every stream for transfers ending at an element boundary (and the exact count in general). False otherwise: read_array_counts_incomplete_element shows a partly filled element counted as complete (stream.hpp 384)."
  },
  {
   "property": "C32",
   "status": "partial",
   "theorems": [
    "Verif.Stream.write_stream_count",
    "Verif.Stream.write_stream_complete_partial",
    "Verif.Stream.write_stream_source_failure",
    "Verif.Stream.write_stream_loses_failure"
   ],
   "note": "Count is exact for every source/destination, complete copy for a destination that accepts everything. The claim about failing writes is false: write_stream_loses_failure (stream.hpp 572/575 overwrite the destination's state)."
  },
  {
   "property": "C33",
   "status": "proved",
   "theorems": [
    "Verif.Stream.serialization_round_trip",
    "Verif.Stream.wire_format",
    "Verif.Stream.too_long_refused",
    "Verif.Stream.put_not_ok",
    "Verif.Stream.truncated_number_accepted"
   ],
   "note": "Numbers of every width, strings of any character width, multisets, in any sequence, over any destination accepting everything and any source with short reads. vector/set >> not modelled (missing return: UB)."
  },
  {
   "property": "C34",
   "status": "proved",
   "theorems": [
    "Verif.Stream.readln_line",
    "Verif.Stream.readln_partitions",
    "Verif.Stream.lines_exist"
   ],
   "note": "Any character width, any source with short reads. charset_encoder variants not modelled."
  },
  {
   "property": "C35",
   "status": "proved",
   "theorems": [
    "Verif.Stream.buffer_exactly_once",
    "Verif.Stream.buffer_flush_delivers",
    "Verif.Stream.buffer_isSource",
    "Verif.Stream.buffer_accepts_all",
    "Verif.Stream.buffer_inv",
    "Verif.Stream.buffer_close_keeps_data"
   ],
   "note": "Every lawful stream, all buffer sizes, all histories. Note: close() does not flush (buffer_close_keeps_data)."
  },
  {
   "property": "C36",
   "status": "proved",
   "theorems": [
    "Verif.Stream.limiter_bound",
    "Verif.Stream.limiter_transparent",
    "Verif.Stream.limiter_refuses",
    "Verif.Stream.limRead_source"
   ],
   "note": "Every lawful stream, all limits (fsize_max = none), all histories."
  },
  {
   "property": "C37",
   "status": "proved",
   "theorems": [
    "Verif.Stream.window_read_region",
    "Verif.Stream.window_reads_region",
    "Verif.Stream.window_writes_region",
    "Verif.Stream.window_end_throws",
    "Verif.Stream.window_write_overcounts",
    "Verif.Stream.winWrite_open",
    "Verif.Stream.window_writes_open"
   ],
   "note": "Any well-behaved source, any offset/limit, any sequence of reads; writing half too (reliable destination). At the end basic::skip may throw instead of eof."
  },
  {
   "property": "C38",
   "status": "partial",
   "theorems": [
    "Verif.Stream.file_window_confined_partial",
    "Verif.Stream.file_window_tell_after_seek_partial",
    "Verif.Stream.file_window_skip_leaves_region",
    "Verif.Stream.file_window_seek_not_relative"
   ],
   "note": "Confinement proved for every history without skip; false with skip (m_offset not updated). tell agrees with the value returned by seek, but not with its argument unless the region starts at 0."
  },
  {
   "property": "C39",
   "status": "partial",
   "theorems": [
    "Verif.Stream.Cache.cache_transparent_partial",
    "Verif.Stream.Cache.cache_stale_block",
    "Verif.Stream.Cache.cache_gap_garbage",
    "Verif.Stream.Cache.cache_size_after_read_past_end",
    "Verif.Stream.Cache.cache_empty_write_grows",
    "Verif.Stream.Cache.cache_empty_read_eof"
   ],
   "note": "The property is false of the code in general: five counterexamples are proved. Proved for all block sizes, contents, uninitialised memory and all histories of nonempty transfers starting within the file with writes no longer than a block; the source is an ideal file (never fails, never short)."
  },
  {
   "property": "C40",
   "status": "proved",
   "theorems": [
    "Verif.Stream.AsyncReader.async_reader_stream",
    "Verif.Stream.AsyncReader.async_reader_memory",
    "Verif.Stream.AsyncWriter.async_writer_stream",
    "Verif.Stream.AsyncWriter.async_writer_memory"
   ],
   "note": "All schedules of the user and worker threads, byte-level interleaving, all ring sizes, all chunkings, short reads/writes, failing source/destination, destructor of the writer. Absence of lost wake-ups between the two threads is C04 (ring)."
  },
  {
   "property": "C41",
   "status": "proved",
   "theorems": [
    "Verif.Stream.Replicator.replicator_order",
    "Verif.Stream.Replicator.replicator_idle",
    "Verif.Stream.Replicator.replicator_result",
    "Verif.Stream.Replicator.replicator_progress",
    "Verif.Stream.Replicator.replicator_terminates"
   ],
   "note": "Any number of streams, any interleaving of the user and the workers, spurious wake-ups, attach/remove between calls. The destructor is modelled as remove of all streams. Termination assumes the streams' own operations return."
  },
  {
   "property": "C42",
   "status": "proved",
   "theorems": [
    "Verif.Stream.read_charset_correct",
    "Verif.Stream.charset_round_trip"
   ],
   "note": "Any file contents; plus write_charset round trip."
  },
  {
   "property": "C43",
   "status": "partial",
   "theorems": [
    "Verif.Str.strncmp_spec_partial",
    "Verif.Str.strcmp_spec_partial",
    "Verif.Str.strcmp_terminated",
    "Verif.Str.strncmp_equal",
    "Verif.Str.strrcmp_spec",
    "Verif.Str.sgn_unique",
    "Verif.Str.strncmp_signed_order",
    "Verif.Str.strcmp_signed_order"
   ],
   "note": "Sign is that of the lexicographic order for all texts with positive characters (unsigned types, ASCII) and for terminated texts (strcmp_terminated: order with NUL as the smallest sentinel); zero iff equal for all. Missing: negative characters of a signed char type where one text is a proper prefix of the other, false of the code (strncmp_signed_order, strcmp_signed_order are counterexamples)."
  },
  {
   "property": "C44",
   "status": "proved",
   "theorems": [
    "Verif.Str.strnstr_spec"
   ],
   "note": "All forms (case-folding via arbitrary fold functions)."
  },
  {
   "property": "C45",
   "status": "proved",
   "theorems": [
    "Verif.Str.strnlen_spec",
    "Verif.Str.strnchr_spec",
    "Verif.Str.strrnchr_spec",
    "Verif.Str.isall_spec"
   ],
   "note": ""
  },
  {
   "property": "C46",
   "status": "partial",
   "theorems": [
    "Verif.Str.strcpy_spec",
    "Verif.Str.strncpy_spec",
    "Verif.Str.strncpy1_spec",
    "Verif.Str.strcat_spec",
    "Verif.Str.strncat_spec",
    "Verif.Str.strdup_spec",
    "Verif.Str.strndup_partial",
    "Verif.Str.strndup_unterminated",
    "Verif.Str.strncat1_unterminated",
    "Verif.Str.strncpy_narrowing"
   ],
   "note": "Missing: termination by the one-count strncat and by strndup, and copies between character types of different width where a non-NUL character narrows to NUL: false of the code (counterexamples proved)."
  },
  {
   "property": "C47",
   "status": "proved",
   "theorems": [
    "Verif.Str.ltrim_spec",
    "Verif.Str.rtrim_spec",
    "Verif.Str.trim_spec",
    "Verif.Str.trimS_spec",
    "Verif.Str.trimmed_idem",
    "Verif.Str.trimmed_unique",
    "Verif.Str.ltrimmed_unique",
    "Verif.Str.rtrimmed_unique"
   ],
   "note": ""
  },
  {
   "property": "C48",
   "status": "proved",
   "theorems": [
    "Verif.Str.crlf2nl_spec",
    "Verif.Str.crlf2nlS_spec",
    "Verif.Str.crlf2nlIn_spec",
    "Verif.Str.collapse_pair",
    "Verif.Str.collapse_crlf",
    "Verif.Str.collapse_none"
   ],
   "note": ""
  },
  {
   "property": "C49",
   "status": "partial",
   "theorems": [
    "Verif.Str.parse_spec",
    "Verif.Str.strtoint_partial",
    "Verif.Str.strtoint_wraps",
    "Verif.Str.strtoint_wraps_example",
    "Verif.Str.strtouint_partial",
    "Verif.Str.strtouint_neg",
    "Verif.Str.strtouint_neg_example"
   ],
   "note": "The parsing core is fully specified. Missing: saturation of positive numbers in [2^(w-1),2^w) by strtoint and negative numbers in strtouint, false of the code (strtoint_wraps, strtouint_neg prove what happens instead)."
  },
  {
   "property": "C50",
   "status": "proved",
   "theorems": [
    "Verif.Str.toPair_roundtrip",
    "Verif.Str.fromPair_roundtrip",
    "Verif.Str.surrogates",
    "Verif.Str.decode_encode",
    "Verif.Str.utf16_strncpy",
    "Verif.Str.utf16_strcpy",
    "Verif.Str.utf16_strcpy_encoded",
    "Verif.Str.utf16_strncmp"
   ],
   "note": ""
  },
  {
   "property": "C51",
   "status": "partial",
   "theorems": [
    "Verif.Str.tolower_spec",
    "Verif.Str.tolower_idem",
    "Verif.Str.classes",
    "Verif.Str.class_members",
    "Verif.Str.toupper_other_partial",
    "Verif.Str.toupper_wrong",
    "Verif.Str.toupper_wrong_example"
   ],
   "note": "tolower and the character classes are proved for every character. Missing: toupper of lower-case letters, false of the code (toupper_wrong: always -1)."
  },
  {
   "property": "C52",
   "status": "proved",
   "theorems": [
    "Verif.Time.dmy_roundtrip",
    "Verif.Time.num_roundtrip",
    "Verif.Time.dmy_next",
    "Verif.Time.dmy_order",
    "Verif.Time.dayOfWeek_spec",
    "Verif.Time.thursday",
    "Verif.Time.dmy_collision"
   ],
   "note": "All valid dates from 1 March of year 0 to February 1469900; dmy_collision shows that before that the code is not injective (29 February and 1 March of year 0 get the same number)."
  },
  {
   "property": "C53",
   "status": "partial",
   "theorems": [
    "Verif.Time.ts_roundtrip",
    "Verif.Time.ts_roundtrip'",
    "Verif.Time.ts_order",
    "Verif.Time.timeT_roundtrip",
    "Verif.Time.timeT_order",
    "Verif.Time.timeT_back",
    "Verif.Time.timeT_epoch",
    "Verif.Time.date_roundtrip",
    "Verif.Time.date_floor",
    "Verif.Time.filetime_roundtrip",
    "Verif.Time.filetime_back",
    "Verif.Time.filetime_epoch",
    "Verif.Time.filetime_timeT",
    "Verif.Time.tm_spec",
    "Verif.Time.timespec_partial",
    "Verif.Time.timespec_wrong",
    "Verif.Time.timespec_example"
   ],
   "note": "Everything holds but the conversion from timespec, which divides nanoseconds by 1000 instead of 1000000: timespec_partial gives the case in which it is right, timespec_wrong/timespec_example show it is wrong otherwise."
  },
  {
   "property": "C54",
   "status": "proved",
   "theorems": [
    "Verif.Record.padding_spec",
    "Verif.Record.ignore_spec",
    "Verif.Record.find_found",
    "Verif.Record.find_none",
    "Verif.Record.find_none_eof",
    "Verif.Record.find_ends",
    "Verif.Record.write_spec",
    "Verif.Record.nested",
    "Verif.Record.read_spec",
    "Verif.Record.write_find_read",
    "Verif.Record.padded_wraps"
   ],
   "note": "For records whose identifier and padded size fit into their fields; padded_wraps shows what happens to those whose padded size does not."
  },
  {
   "property": "C55",
   "status": "partial",
   "theorems": [
    "Verif.Progress.agg_quiescent",
    "Verif.Progress.agg_always",
    "Verif.Progress.agg_host",
    "Verif.Progress.agg_host_range",
    "Verif.Progress.agg_attach",
    "Verif.Progress.agg_unraced_partial",
    "Verif.Progress.agg_within",
    "Verif.Progress.agg_stale"
   ],
   "note": "The counters of the aggregate hold the sums in every execution, and everything told to the host is a sum as of some moment of the call. The attached host need not end with the sum: two overlapping set calls may tell it their sums in the wrong order (agg_stale); agg_unraced_partial is the case without overlap."
  },
  {
   "property": "C56",
   "status": "proved",
   "theorems": [
    "Verif.Progress.section_spec",
    "Verif.Progress.section_start",
    "Verif.Progress.section_end",
    "Verif.Progress.section_monotone",
    "Verif.Progress.section_silent",
    "Verif.Progress.phases_monotone",
    "Verif.Progress.section_overflow",
    "Verif.Progress.new_silent",
    "Verif.Progress.no_section"
   ],
   "note": "For integer T of at least 32 bits, when the product of the two sizes is representable; section_overflow shows what happens otherwise."
  },
  {
   "property": "C57",
   "status": "proved",
   "theorems": [
    "Verif.Progress.lazy_spec",
    "Verif.Progress.lazy_rate",
    "Verif.Progress.lazy_forwards",
    "Verif.Progress.lazy_minus_one"
   ],
   "note": "Nothing forwarded yet counts as -1 forwarded at the epoch (lazy_minus_one)."
  },
  {
   "property": "C58",
   "status": "partial",
   "theorems": [
    "Verif.Str.strtouuid_partial",
    "Verif.Str.strtouuid_complete",
    "Verif.Str.uuid_roundtrip",
    "Verif.Str.uuid_roundtrip_count",
    "Verif.Str.uuidtostr_injective",
    "Verif.Str.strtouuid_lax",
    "Verif.Str.strtouuid_any_separator",
    "Verif.Str.uuidtowstr_wrong",
    "Verif.Str.uuidtowstr_roundtrip_fails"
   ],
   "note": "The round trip holds for every UUID (narrow text). Missing: rejection and memory safety when the character after the fourth field is not a dash (the code tests with && instead of ||; any character is accepted, and at the end of the text the read is outside), and the wide uuidtostr, which has an extra argument; both shown."
  },
  {
   "property": "C59",
   "status": "partial",
   "theorems": [
    "Verif.Minisign.parse_minisig_partial",
    "Verif.Minisign.parse_line",
    "Verif.Minisign.parse_none",
    "Verif.Minisign.signature_line_or_not",
    "Verif.Minisign.unterminated_ignored"
   ],
   "note": "For every stream delivering the text in any pieces. Missing: a signature on a last line without line break is rejected (unterminated_ignored shows it)."
  },
  {
   "property": "C60",
   "status": "partial",
   "theorems": [
    "Verif.Sgml.sgml2str_decodes",
    "Verif.Sgml.pieces_src",
    "Verif.Sgml.pieces_ent",
    "Verif.Sgml.sgml2str_plain",
    "Verif.Sgml.decode_literal",
    "Verif.Sgml.str2sgml_encodes",
    "Verif.Sgml.numEntity_digits",
    "Verif.Sgml.sgml_round_trip_partial",
    "Verif.Sgml.sgml_lossy"
   ],
   "note": "Round trip is false as stated: 133 texts (U+02BC, U+2727, 131 letter+mark glyphs) are encoded by an entity that is decoded to another text (sgml_lossy, one theorem for all of them); proved for all texts without these. 32-bit wchar_t."
  },
  {
   "property": "C61",
   "status": "proved",
   "theorems": [
    "Verif.Parser.tree_match",
    "Verif.Parser.sem_seq",
    "Verif.Parser.sem_branch",
    "Verif.Parser.sem_iter",
    "Verif.Parser.sem_perm",
    "Verif.Parser.tree_search",
    "Verif.Parser.mem_orders"
   ],
   "note": "An iteration that meets an empty match of the element succeeds, even before the minimum (the empty match could be repeated). Aliased elements (one shared_ptr twice in a tree) are not modelled."
  },
  {
   "property": "C62",
   "status": "partial",
   "theorems": [
    "Verif.Str.islbreak_partial",
    "Verif.Str.islbreak_last",
    "Verif.Str.glyphlen16_spec",
    "Verif.Str.glyphlen32_spec",
    "Verif.Str.glyphrlen16_spec",
    "Verif.Str.glyphrlen32_partial",
    "Verif.Str.glyphrlen32_wrong",
    "Verif.Str.iscombining_spec"
   ],
   "note": "Missing: islbreak of the last character and the UTF-32 glyphrlen after a non-combining character, false of the code (islbreak_last, glyphrlen32_wrong)."
  },
  {
   "property": "C63",
   "status": "proved",
   "theorems": [
    "Verif.Progress.switcher_restores",
    "Verif.Progress.switcher_current"
   ],
   "note": ""
  },
  {
   "property": "C64",
   "status": "proved",
   "theorems": [
    "Verif.Progress.timeout_spec"
   ],
   "note": ""
  },
  {
   "property": "C65",
   "status": "proved",
   "theorems": [
    "Verif.Progress.agg_detached",
    "Verif.Progress.agg_attached"
   ],
   "note": ""
  },
  {
   "property": "C66",
   "status": "proved",
   "theorems": [
    "Verif.Sgml.sgmlerr_first",
    "Verif.Sgml.sgmlerr_npos"
   ],
   "note": "Pieces are those of the decoder."
  },
  {
   "property": "C67",
   "status": "partial",
   "theorems": [
    "Verif.Sgml.sgml_src2dst",
    "Verif.Sgml.sgml_dst2src",
    "Verif.Sgml.sgml_src2dst_wrong"
   ],
   "note": "False before the first entity if the offsets of source and destination differ (sgml_src2dst_wrong): there is no map point at the start. Proved from the first entity on, and everywhere if the offsets agree."
  },
  {
   "property": "C68",
   "status": "proved",
   "theorems": [
    "Verif.Sgml.str2sgml_ascii",
    "Verif.Sgml.str2sgml_no_flagged"
   ],
   "note": "32-bit wchar_t."
  },
  {
   "property": "C69",
   "status": "partial",
   "theorems": [
    "Verif.Sgml.sgml2str_fixed",
    "Verif.Sgml.sgml2str_fixed_copy",
    "Verif.Sgml.str2sgml_fixed_partial",
    "Verif.Sgml.str2sgml_overflow"
   ],
   "note": "Decoding: proved. Encoding: false as stated (str2sgml_overflow: characters written by number are checked against the size of the buffer without the text that is already there); proved whenever the result fits, and for texts without such characters."
  },
  {
   "property": "C70",
   "status": "proved",
   "theorems": [
    "Verif.Parser.tree_intervals",
    "Verif.Parser.seq_contract",
    "Verif.Parser.branch_contract",
    "Verif.Parser.perm_contract",
    "Verif.Parser.iter_contract",
    "Verif.Parser.seq_failure",
    "Verif.Parser.branch_failure",
    "Verif.Parser.perm_failure"
   ],
   "note": "outcome, seqR, branchR, permR, iterR are the statement"
  },
  {
   "property": "C71",
   "status": "proved",
   "theorems": [
    "Verif.Parser.noop_spec",
    "Verif.Parser.anyCu_spec",
    "Verif.Parser.cu_spec",
    "Verif.Parser.spaceCu_spec",
    "Verif.Parser.punctCu_spec",
    "Verif.Parser.spaceOrPunctCu_spec",
    "Verif.Parser.bol_spec",
    "Verif.Parser.eol_spec",
    "Verif.Parser.cuSet_spec",
    "Verif.Parser.string_spec",
    "Verif.Parser.atChar_spec"
   ],
   "note": "sgml_* parsers: see C72"
  },
  {
   "property": "C72",
   "status": "proved",
   "theorems": [
    "Verif.Parser.sgmlAny_spec",
    "Verif.Parser.sgmlCp_spec",
    "Verif.Parser.sgmlSpace_spec",
    "Verif.Parser.sgmlPunct_spec",
    "Verif.Parser.sgmlSpaceOrPunct_spec",
    "Verif.Parser.sgmlSet_spec",
    "Verif.Parser.sgmlString_spec",
    "Verif.Parser.sgmlString_good",
    "Verif.Parser.piecewise_good"
   ],
   "note": "32-bit wide characters; texts shorter than 2^64; the locale's is(space) is assumed to include stdex::isspace and tolower to map only 0 to 0."
  },
  {
   "property": "C73",
   "status": "proved",
   "theorems": [
    "Verif.Parser.integer_spec",
    "Verif.Parser.written_unique",
    "Verif.Parser.integer10_ascii",
    "Verif.Parser.integer10_roundtrip",
    "Verif.Parser.integerTs_spec",
    "Verif.Parser.integer10_wraps"
   ],
   "note": "Value modulo 2^64, as stated; digit parsers take at least one code unit."
  },
  {
   "property": "C74",
   "status": "proved",
   "theorems": [
    "Verif.Parser.roman_value",
    "Verif.Parser.roman_canonical",
    "Verif.Parser.roman_canonical'"
   ],
   "note": "Texts shorter than 2^40 code units, so that the value does not wrap."
  },
  {
   "property": "C75",
   "status": "partial",
   "theorems": [
    "Verif.Parser.fraction_spec",
    "Verif.Parser.score_spec",
    "Verif.Parser.signed_spec",
    "Verif.Parser.mixed_spec",
    "Verif.Parser.scientific_spec",
    "Verif.Parser.monetary_spec",
    "Verif.Parser.scientific_literal_partial",
    "Verif.Parser.scientific_decimals_wrap"
   ],
   "note": "False of the code for a scientific numeral with an integer or decimals of 2^64 or more (scientific_decimals_wrap); double arithmetic is modelled exactly, without rounding."
  },
  {
   "property": "C76",
   "status": "partial",
   "theorems": [
    "Verif.Parser.ipv4_spec",
    "Verif.Parser.ipv4_dotted",
    "Verif.Parser.ipv4_bytes_reversed",
    "Verif.Parser.ipv6_spec",
    "Verif.Parser.ipv6_unambiguous",
    "Verif.Parser.ipv6_value_zero"
   ],
   "note": "Matching, components and intervals are proved. False of the code: network byte order of the IPv4 value, the IPv6 value, and the end of a compacted IPv6 address followed by a colon."
  },
  {
   "property": "C77",
   "status": "partial",
   "theorems": [
    "Verif.Parser.iban_spec",
    "Verif.Parser.creditor_partial",
    "Verif.Parser.creditor_overflow",
    "Verif.Parser.iban_countries",
    "Verif.Parser.iban_country"
   ],
   "note": "IBAN: proved. Creditor reference: proved up to 19 letters; with more the code writes outside of an array (creditor_overflow). Assumed: the blank parser takes at least one code unit."
  },
  {
   "property": "C78",
   "status": "partial",
   "theorems": [
    "Verif.Parser.siRef_partial",
    "Verif.Parser.siRef_refuses",
    "Verif.Parser.siRef_stray",
    "Verif.Parser.siValid_spec",
    "Verif.Parser.stray_inside"
   ],
   "note": "Everything proved except is_valid of model 01 with three parts (compares with part2[num_part3-1]) and of groups of two parts with a weighted sum divisible by 11 (always refused); both are defects of the code, proved as siRef_stray and siRef_refuses."
  },
  {
   "property": "C79",
   "status": "partial",
   "theorems": [
    "Verif.Parser.date_partial",
    "Verif.Parser.date_greatest",
    "Verif.Parser.isValidDay_spec"
   ],
   "note": "Proved except for integers of value 2^64-1, which the code takes for 'not given' (date_greatest: month 2^64-1 counts as January)."
  },
  {
   "property": "C80",
   "status": "proved",
   "theorems": [
    "Verif.Parser.time_spec",
    "Verif.Parser.angle_spec"
   ],
   "note": ""
  },
  {
   "property": "C81",
   "status": "partial",
   "theorems": [
    "Verif.Parser.json_match",
    "Verif.Parser.json_only",
    "Verif.Parser.json_unicode_partial",
    "Verif.Parser.json_roundtrip",
    "Verif.Parser.json_surrogates",
    "Verif.Parser.json_backslash"
   ],
   "note": "Proved for the grammar of RFC 8259 with each \\uXXXX as a unit; a pair of surrogates is not combined (json_surrogates), so such strings become invalid UTF-8. m_chr must not take the backslash (json_backslash). Case sensitive elements."
  },
  {
   "property": "C82",
   "status": "proved",
   "theorems": [
    "Verif.Parser.dnsName_spec",
    "Verif.Parser.longest_unique",
    "Verif.Parser.dnsChar_ascii",
    "Verif.Parser.dnsName_text"
   ],
   "note": "Length limits of labels (63) and names (253) are not checked by the code and not part of the claim."
  },
  {
   "property": "C83",
   "status": "proved",
   "theorems": [
    "Verif.Parser.urlChars_rfc",
    "Verif.Parser.urlChar_spec",
    "Verif.Parser.urlPath_parts",
    "Verif.Parser.urlPath_total"
   ],
   "note": "Element parsers of the path are the character tests of the library."
  },
  {
   "property": "C84",
   "status": "partial",
   "theorems": [
    "Verif.Parser.url_spec_partial",
    "Verif.Parser.url_order",
    "Verif.Parser.email_spec",
    "Verif.Parser.url_ftp_user"
   ],
   "note": "Missing: ftp URLs with a user name but no password: parser.hpp:3549 looks for @ at the end of the previous match instead of the end of the user name, so ftp://user@host is taken as host user and path @host; url_ftp_user shows it. E-mail addresses are proved in full."
  },
  {
   "property": "C85",
   "status": "proved",
   "theorems": [
    "Verif.Parser.phone_spec",
    "Verif.Parser.asciiPhone_ok",
    "Verif.Parser.phone_null"
   ],
   "note": "Without parentheses parsers the code dereferences null pointers (phone_null)."
  },
  {
   "property": "C86",
   "status": "partial",
   "theorems": [
    "Verif.Parser.emoticon_spec_partial",
    "Verif.Parser.emoticon_hit",
    "Verif.Parser.emoticon_apex"
   ],
   "note": "Missing: mouth->hit_offset is never that of the mouth matched (emoticon_hit, for all inputs); where the apex can be taken for eyes, an emoticon that is there is not found (emoticon_apex)."
  },
  {
   "property": "C87",
   "status": "proved",
   "theorems": [
    "Verif.Parser.chem_spec",
    "Verif.Parser.chem_case",
    "Verif.Parser.asciiChem_ok"
   ],
   "note": "An element parser that matches the empty text would make it loop for ever; elements are required to take something."
  },
  {
   "property": "C88",
   "status": "partial",
   "theorems": [
    "Verif.Parser.break_spec",
    "Verif.Parser.space_lws_partial",
    "Verif.Parser.space_break",
    "Verif.Parser.token_char",
    "Verif.Parser.token_spec",
    "Verif.Parser.quoted_spec",
    "Verif.Parser.quoted_escape_partial",
    "Verif.Parser.quoted_byte",
    "Verif.Parser.value_spec"
   ],
   "note": "White space as RFC 2616 has it holds only where no CR, LF, VT or FF is taken for white space (space_break is a counterexample); quoted strings with bytes above 127 are not matched (quoted_byte), so reading back what was quoted is proved for other strings."
  },
  {
   "property": "C89",
   "status": "partial",
   "theorems": [
    "Verif.Parser.any_type_spec",
    "Verif.Parser.range_spec",
    "Verif.Parser.param_spec_partial",
    "Verif.Parser.param_space",
    "Verif.Parser.param_noequal",
    "Verif.Parser.type_spec_partial"
   ],
   "note": "Parameters: where no white space follows the equals sign and it is not missing; param_space and param_noequal show that the code is wrong in these cases. Media ranges and */* are complete."
  },
  {
   "property": "C90",
   "status": "proved",
   "theorems": [
    "Verif.Parser.cookie_spec",
    "Verif.Parser.cookie_one",
    "Verif.Parser.cookie_simple"
   ],
   "note": "White space and quoted strings as in C88."
  },
  {
   "property": "C91",
   "status": "partial",
   "theorems": [
    "Verif.Parser.http_url_partial",
    "Verif.Parser.http_url_terminated_partial",
    "Verif.Parser.httpUrlAt_one",
    "Verif.Parser.port_spec",
    "Verif.Parser.path_spec",
    "Verif.Parser.segs_join",
    "Verif.Parser.url_port",
    "Verif.Parser.url_limit",
    "Verif.Parser.url_outside"
   ],
   "note": "Not where the port is a colon without digits (url_port: the value is 0, not 80), where the limit ends the text before the path (url_limit: matches outside of the text) or where a parameter ends at the limit before an equals sign or the end of the memory (url_outside)."
  },
  {
   "property": "C92",
   "status": "partial",
   "theorems": [
    "Verif.Parser.language_spec",
    "Verif.Parser.langAt_one",
    "Verif.Parser.weight_spec_partial",
    "Verif.Parser.weight_zero",
    "Verif.Parser.weighted_spec_partial",
    "Verif.Parser.weighted_stale"
   ],
   "note": "Weights of at most 19 digits before and after the point (weight_zero: 64 digits of fraction divide by zero); double and float are not modelled: the value is the pair of integers it is computed from. Weighted values for a new parser only: weighted_stale shows that a used one keeps its old factor."
  },
  {
   "property": "C93",
   "status": "proved",
   "theorems": [
    "Verif.Parser.collect_spec",
    "Verif.Parser.collection_spec",
    "Verif.Parser.itemsAt_one"
   ],
   "note": "Factors are from any total order; std::multiset::insert is modelled as insertion after equal elements. Element parsers match at least one character."
  },
  {
   "property": "C94",
   "status": "partial",
   "theorems": [
    "Verif.Parser.agent_spec_partial",
    "Verif.Parser.agent_stale",
    "Verif.Parser.protocol_spec_partial",
    "Verif.Parser.protocol_open",
    "Verif.Parser.request_spec_partial",
    "Verif.Parser.requestAt_one",
    "Verif.Parser.url_readsUrl",
    "Verif.Parser.request_rest",
    "Verif.Parser.request_open"
   ],
   "note": "agent: version is left from before without a slash (agent_stale). protocol: parts of versions are decimal and below 256, and something follows the version (protocol_open). request: what follows the URL is nothing, or a protocol with such a version (request_rest, request_open show the rest)."
  },
  {
   "property": "C95",
   "status": "proved",
   "theorems": [
    "Verif.Parser.header_spec",
    "Verif.Parser.headerAt_one"
   ],
   "note": "dichotomy: matched iff HeaderAt, with its unique intervals"
  },
  {
   "property": "C96",
   "status": "proved",
   "theorems": [
    "Verif.Parser.cssComment_spec",
    "Verif.Parser.cssCdo_spec",
    "Verif.Parser.cssCdc_spec",
    "Verif.Parser.cssString_spec",
    "Verif.Parser.cssUri_spec",
    "Verif.Parser.cssImport_spec",
    "Verif.Parser.css_backslash"
   ],
   "note": "Decides: the result is defined, and it is p iff the specification relates p; so it is unique. Escaped backslashes are not known to the parser (css_backslash)"
  },
  {
   "property": "C97",
   "status": "proved",
   "theorems": [
    "Verif.Parser.mime_spec",
    "Verif.Parser.mime_semicolon"
   ],
   "note": "Decides as in C96; a charset without quotes goes on to white space, also over a semicolon (mime_semicolon)"
  },
  {
   "property": "C98",
   "status": "proved",
   "theorems": [
    "Verif.Parser.htmlIdent_spec",
    "Verif.Parser.htmlValue_spec",
    "Verif.Parser.conditionStart_spec",
    "Verif.Parser.conditionEnd_spec"
   ],
   "note": "Decides as in C96"
  },
  {
   "property": "C99",
   "status": "partial",
   "theorems": [
    "Verif.Parser.htmlTag_spec_partial",
    "Verif.Parser.htmlTag_bounds",
    "Verif.Parser.htmlTag_element",
    "Verif.Parser.htmlTag_stuck",
    "Verif.Parser.tagLoop_hangs",
    "Verif.Parser.htmlTag_hangs",
    "Verif.Parser.tagAt_one"
   ],
   "note": "The code does not come to an end for </a/> and <!a/>: exactly those texts (StuckTag) are excluded, and htmlTag_stuck proves that there it never returns (the vector of attributes grows, tagLoop_hangs)."
  }
 ]
}
{
 "claims": [
  {
   "property": "C01",
   "status": "proved",
   "theorems": [
    "Props.C01_base64_roundtrip"
   ],
   "note": "For all data and all chunkings on both sides."
  },
  {
   "property": "C02",
   "status": "proved",
   "theorems": [
    "Props.C02_base64_is_rfc4648"
   ],
   "note": "Against a bit-level RFC 4648 specification (Verif/Spec/Base64.lean)."
  },
  {
   "property": "C03",
   "status": "partial",
   "theorems": [
    "Props.C03_output",
    "Props.C03_output_chunk_invariant",
    "Props.C03_whitespace",
    "Props.C03_status_one_call",
    "Props.C03_garbage_rejected",
    "Props.C03_accepts",
    "Props.C03_status_chunk_dependent_fails",
    "Props.C03_incomplete_reported"
   ],
   "note": "Output is chunk-invariant, white-space-insensitive and equals the specification; garbage before any '=' is always reported. The status part is false of the code once an '=' was seen: C03_status_chunk_dependent_fails proves the negation."
  },
  {
   "property": "C04",
   "status": "proved",
   "theorems": [
    "Props.C04_hex_encodes",
    "Props.C04_hex_roundtrip",
    "Props.C04_hex_decodes",
    "Props.C04_hex_odd_reported"
   ],
   "note": "Encoder, round trip with white space, decoder output and error status for all chunkings."
  },
  {
   "property": "C05",
   "status": "partial",
   "theorems": [
    "Props.C05_backslash_roundtrip_partial",
    "Props.C05_backslash_printable",
    "Props.C05_decoder_chunk_invariant",
    "Props.C05_backslash_roundtrip_fails"
   ],
   "note": "For every data and chunking, for the default set of escaped characters and every set without letters that mean something after a backslash; missing: other sets, for which it is false (C05_backslash_roundtrip_fails), and bounded output buffers."
  },
  {
   "property": "C06",
   "status": "proved",
   "theorems": [
    "Props.C06_inactive_forever",
    "Props.C06_finish_at_most_once",
    "Props.C06_reset_like_new",
    "Props.C06_reset_unsupported",
    "Props.C06_reset_chain"
   ],
   "note": "For an arbitrary encoder implementation over arbitrary histories; reset for each concrete encoder, including the two that do not support it."
  },
  {
   "property": "C07",
   "status": "proved",
   "theorems": [
    "Props.C07_xor_spec",
    "Props.C07_xor_involution"
   ],
   "note": "For every key and every chunking on both sides."
  },
  {
   "property": "C08",
   "status": "proved",
   "theorems": [
    "Props.C08_ctr_spec",
    "Props.C08_ctr_involution",
    "Props.C08_counter_no_repeat"
   ],
   "note": "For an arbitrary block function and arbitrary drives; no counter value repeats within 256^n blocks."
  },
  {
   "property": "C09",
   "status": "proved",
   "theorems": [
    "Props.C09_chain_composes",
    "Props.C09_encoders_then_decoders",
    "Props.C09_finish_reports",
    "Props.C09_passthrough_counts"
   ],
   "note": "For every chain of append-only encoders; instance: all encoders of the model followed by their decoders."
  },
  {
   "property": "C10",
   "status": "partial",
   "theorems": [
    "Props.C10_buffers_are_queues_partial",
    "Props.C10_dynamic_peek_across_pieces_fails",
    "Props.C10_circular_normalize",
    "Props.C10_inplace_peek_checked",
    "Props.C10_dynamic_peek_behind_fails",
    "Props.C10_circular_poke_behind_past_end_fails",
    "Props.C10_circular_empty_memory_fails"
   ],
   "note": "Refinement of every history of legal calls on any family of in-place, circular and dynamic buffers of any size. Not covered, because the code fails there (C10_..._fails): peeking bytes of a dynamic buffer that are in several pieces at a nonzero offset, negative offsets on dynamic buffers and on empty circular ones, poking from a negative offset past the end, circular buffers of size 0."
  },
  {
   "property": "C11",
   "status": "proved",
   "theorems": [
    "Props.C11_unget_restores",
    "Props.C11_get_unget"
   ],
   "note": "At every point of every legal history; ghost state records the bytes taken."
  },
  {
   "property": "C12",
   "status": "proved",
   "theorems": [
    "Props.C12_merge_conserves",
    "Props.C12_merge_after_peek_behind_fails"
   ],
   "note": "At every point of every legal history of any family of buffers, for both the copying and the stealing path. C12_merge_after_peek_behind_fails shows what a peek outside of the legal calls breaks."
  },
  {
   "property": "C13",
   "status": "proved",
   "theorems": [
    "Props.C13_bounded_fifo"
   ],
   "note": "All capacities, memories and histories."
  },
  {
   "property": "C14",
   "status": "proved",
   "theorems": [
    "Props.C14_every_schedule",
    "Props.C14_nothing_lost",
    "Props.C14_put_fills"
   ],
   "note": "Every schedule of byte-level steps of one writer and one reader, under sequential consistency (compiler and processor reordering of the plain memory accesses are not modelled)."
  },
  {
   "property": "C15",
   "status": "proved",
   "theorems": [
    "Props.C15_unescape_escape",
    "Props.C15_escape_size",
    "Props.C15_getword_escape",
    "Props.C15_getword_takes_prefix",
    "Props.C15_getword_unescape_defined",
    "Props.C15_unescape_total_fails",
    "Props.C15_quoted_words_fails"
   ],
   "note": "Escape/unescape and escape/getword for every string, character set and following text; how much getword takes is exact. Documented double-quoted words do not work (C15_quoted_words_fails) and unescape of a lone quote is undefined (C15_unescape_total_fails)."
  },
  {
   "property": "C16",
   "status": "partial",
   "theorems": [
    "Props.C16_list_roundtrip_partial",
    "Props.C16_list_last_word_lost",
    "Props.C16_list_roundtrip_fails"
   ],
   "note": "For every list whose last word is not backslash-escaped with a trailing newline; that last word is lost by the decoder (C16_list_last_word_lost, C16_list_roundtrip_fails)."
  },
  {
   "property": "C17",
   "status": "partial",
   "theorems": [
    "Props.C17_scatter_hash_partial",
    "Props.C17_few_adds_partial",
    "Props.C17_find_added_partial",
    "Props.C17_probing_ends_fails"
   ],
   "note": "Proved for tables made for fewer than 2^15 elements that never hold 26208 elements or more, for every hash function and history. For larger tables the claim is false of the code: C17_probing_ends_fails."
  },
  {
   "property": "C18",
   "status": "proved",
   "theorems": [
    "Props.C18_dictionary",
    "Props.C18_find"
   ],
   "note": "Every hash function and history, for suggested sizes below 2^30 (larger ones overflow in the constructor). get_autofree(T*) and set_autofree(T*), which pass a hash where a key is expected, are left out; the calls by key are modelled."
  },
  {
   "property": "C19",
   "status": "partial",
   "theorems": [
    "Props.C19_parse_printable",
    "Props.C19_printable",
    "Props.C19_parse_same",
    "Props.C19_join_text",
    "Props.C19_join_assoc",
    "Props.C19_join_empty",
    "Props.C19_join_right_unit_fails",
    "Props.C19_range",
    "Props.C19_range_join",
    "Props.C19_first_removefirst",
    "Props.C19_removelast_last",
    "Props.C19_pop",
    "Props.C19_append_prepend",
    "Props.C19_append_fails",
    "Props.C19_numsegments_partial",
    "Props.C19_numsegments_fails"
   ],
   "note": "Proved: parse after printable, printable form, associativity, left unit, ranges, pop, append, prepend, and additivity of numsegments without trailing slashes. False of the code and proved so: the empty key as right unit (it adds a trailing slash), numsegments with trailing slashes, and append to a key with a trailing slash."
  },
  {
   "property": "C20",
   "status": "proved",
   "theorems": [
    "Props.C20_order",
    "Props.C20_total_order",
    "Props.C20_hash",
    "Props.C20_suborsame",
    "Props.C20_subkey_join",
    "Props.C20_join_subkey"
   ],
   "note": "Order, equality, hash and containment, for every pair and triple of keys."
  },
  {
   "property": "C21",
   "status": "partial",
   "theorems": [
    "Props.C21_matches_sound",
    "Props.C21_matches_partial",
    "Props.C21_matches_fails"
   ],
   "note": "Exact for patterns with all wildcards before all other names; sound for all patterns. A wildcard after a name stands only for itself in the code: C21_matches_fails."
  },
  {
   "property": "C22",
   "status": "proved",
   "theorems": [
    "Props.C22_get",
    "Props.C22_exists",
    "Props.C22_haschildren",
    "Props.C22_iterator"
   ],
   "note": "For every history of calls of set (keys as texts, values or null, and any order the children's hash table takes at each change): get reads what the specification's map says (last value; empty if made for something below; null if removed or never there; null for a key ending in a slash), exists agrees with it, haschildren holds iff some key one below exists, and iterator lists exactly the keys one below, each once, with their values, or is null if the key does not exist. Hash containers are taken to behave as C17 shows."
  },
  {
   "property": "C23",
   "status": "proved",
   "theorems": [
    "Props.C23_mirror",
    "Props.C23_exact",
    "Props.C23_silent",
    "Props.C23_delivered"
   ],
   "note": "The notifications of each call after any history are exactly the keys whose value differs before and after, each once, with the value after; so replaying them on a mirror gives what get reads, and a call that changes nothing is silent. The calls set makes to deliver them deliver all of them, in order, only at the last of these calls, if nothing else holds notifications and callbacks do not call back."
  },
  {
   "property": "C24",
   "status": "proved",
   "theorems": [
    "Props.C24_deliveries",
    "Props.C24_reentrant",
    "Props.C24_unhold_checked"
   ],
   "note": "C24_deliveries: for callbacks that make no calls on the generator, for every sequence of calls in which no unhold comes before its hold. C24_reentrant: whatever calls the callbacks make, as long as they end and no assertion fails, the deliveries are those of a first-in-first-out queue, and nothing is queued when nothing is held."
  },
  {
   "property": "C25",
   "status": "partial",
   "theorems": [
    "Props.C25_readonly_partial",
    "Props.C25_readonly_reads",
    "Props.C25_readonly_setv_fails",
    "Props.C25_subtree_partial",
    "Props.C25_subtree_setv_fails",
    "Props.C25_subtree_slash_fails",
    "Props.C25_secure_get",
    "Props.C25_secure_set",
    "Props.C25_secure_exists",
    "Props.C25_secure_haschildren",
    "Props.C25_secure_iterator",
    "Props.C25_secure_setv_fails"
   ],
   "note": "For every inner generator. Read-only: no call but setv writes to the inner generator (C25_readonly_partial: it keeps every property its own commit, refresh and prefetch keep), and it shows what the inner one shows. Subtree: behaves as the part of the inner configuration below its key, and changes nothing else but creating the keys above, for a key without a slash at its end and calls other than setv. Secure: get, set, exists, haschildren and iterator answer exactly if the permissions (a separate specification of owner, group, world flags and inheritance) allow it; str2int is a parameter. setv goes through all three unchecked and unmapped: C25_readonly_setv_fails, C25_subtree_setv_fails, C25_secure_setv_fails. C25_subtree_slash_fails: a subtree key with a slash at its end."
  },
  {
   "property": "C26",
   "status": "proved",
   "theorems": [
    "Props.C26_reads",
    "Props.C26_get",
    "Props.C26_set",
    "Props.C26_setv",
    "Props.C26_set_get"
   ],
   "note": "The list shows the overlay of its generators: get, exists, haschildren and iterator (each name once, value of the first generator that has it); C26_get names the generator that answers; set, setv, commit and refresh reach every generator. All generators of a list have the same type of state; a sum type makes that no restriction."
  },
  {
   "property": "C27",
   "status": "partial",
   "theorems": [
    "Props.C27_routes",
    "Props.C27_nowhere",
    "Props.C27_longest_partial",
    "Props.C27_longest_fails",
    "Props.C27_slash_fails",
    "Props.C27_mounts",
    "Props.C27_tidy",
    "Props.C27_unmount_fails",
    "Props.C27_mountpoint",
    "Props.C27_setv",
    "Props.C27_commit",
    "Props.C27_refresh",
    "Props.C27_exists_fails",
    "Props.C27_refresh_fails",
    "Props.C27_iterator_value_fails",
    "Props.C27_notify_fails",
    "Props.C27_notify"
   ],
   "note": "Proved: setv gives each generator exactly its pairs, commit reaches all, refresh says whether all succeed (no generator mounted twice); reads, sets, exists, haschildren and iterators at a key some mount covers are those of the most recently mounted covering generator at the rest of the key; where none covers, sets do nothing and a key exists exactly if something is mounted below; mounting and unmounting keep the table as stated; the mount point and the keys above exist after mounting, which only adds empty values. Partial: the generator with the longest covering mount point is used only when of two nested mount points the longer was mounted later (C27_longest_fails), and mount points ending in a slash, unmounting something not mounted, refreshing past a failure, exists against get, values of iterators over no mount and notifications for the root of a mounted generator go wrong (the _fails theorems)."
  },
  {
   "property": "C28",
   "status": "partial",
   "theorems": [
    "Props.C28_transactions_partial",
    "Props.C28_isolated",
    "Props.C28_get_slash_fails",
    "Props.C28_set_slash_fails",
    "Props.C28_commit_slash_fails"
   ],
   "note": "For a transaction over any generator that behaves as a configuration (nothing below what does not exist; the in-memory generator is one), after any history of writes through it, commits, refreshes and writes of others to the base: the base holds exactly what the specification says (uncommitted writes not in it, committed ones made on top of what others wrote), and get, exists, haschildren and iterators show the base with the uncommitted writes made on top. Missing: keys with a slash at their end, for which it is false (C28_get_slash_fails, C28_set_slash_fails, C28_commit_slash_fails); notifications are not modelled; C28_isolated needs no restriction on keys or base."
  },
  {
   "property": "C29",
   "status": "partial",
   "theorems": [
    "Props.C29_in_order",
    "Props.C29_prefix_partial",
    "Props.C29_count",
    "Props.C29_flush",
    "Props.C29_flush_all",
    "Props.C29_limit",
    "Props.C29_limit_fails",
    "Props.C29_gap_fails"
   ],
   "note": "For every history of calls and every behaviour of the device (how much it takes, in which pieces it is offered, calls to close/seterr from within): on a good stream, bytes sent followed by bytes buffered are the bytes accepted (C29_in_order); write accepts no more than it was given; a flush that reports success on a good stream has sent everything; flush without time limit sends everything to a device that takes at least a byte each time; with a limit set beforehand the buffer of a good stream never exceeds it. After the stream stopped being good, the sent bytes are still a prefix of those accepted, shown for devices that do not close the stream without an error in a write that takes less than offered (C29_prefix_partial). Missing because false: C29_gap_fails (such a device with auto_flush off loses a piece before others), C29_limit_fails (lowering the limit below the buffered amount lifts it)."
  },
  {
   "property": "C30",
   "status": "proved",
   "theorems": [
    "Props.C30_queue",
    "Props.C30_order",
    "Props.C30_read",
    "Props.C30_queuemin",
    "Props.C30_getline"
   ],
   "note": "For every history of read, getline, unread and other calls and every device behaviour: what was produced and put back forms one queue, what is returned comes from its head, and the rest is in the buffer; without unread, returned ++ buffered = produced. Also the contracts of read (count, queuemin) and getline. Getline consumes the separator. Callbacks that read from the stream are not modelled."
  },
  {
   "property": "C31",
   "status": "proved",
   "theorems": [
    "Props.C31_dead",
    "Props.C31_close",
    "Props.C31_seterr",
    "Props.C31_once",
    "Props.C31_set"
   ],
   "note": "For every history, device behaviour and code of close callbacks (which may write, close, set errors, set callbacks): a stream that is not good stays so, the device gets nothing more, the error sticks, write accepts nothing (C31_dead); close closes; the first error is kept and closes; each close callback that was set is called at most once, and exactly once on a closed stream unless another was set in its place (C31_once), where the set ones are those of the history (C31_set). Depth of nested calls is bounded by an arbitrary number; results hold for each bound, C31_close and C31_seterr from 2 and 3."
  },
  {
   "property": "C32",
   "status": "partial",
   "theorems": [
    "Props.C32_print_unsigned",
    "Props.C32_print_signed_partial",
    "Props.C32_print_smallest_short_fails",
    "Props.C32_print_smallest_undefined",
    "Props.C32_print_fits",
    "Props.C32_parse_signed_partial",
    "Props.C32_parse_unsigned",
    "Props.C32_num",
    "Props.C32_is_int",
    "Props.C32_parse_only_numbers_fails",
    "Props.C32_parse_accepts_only",
    "Props.C32_parse_accepts_only_unsigned",
    "Props.C32_is_int_exact"
   ],
   "note": "Every unsigned value, and every signed value but the smallest of its type, for which the code is wrong or undefined (C32_print_smallest_short_fails, C32_print_smallest_undefined). num() is atoi, modelled after the C standard."
  },
  {
   "property": "C33",
   "status": "proved",
   "theorems": [
    "Props.C33_url_roundtrip",
    "Props.C33_url_roundtrip_unsafe",
    "Props.C33_url_roundtrip_any_set_fails",
    "Props.C33_url_safe_output"
   ],
   "note": "For the default and every set that contains the percent sign; other sets lose percent signs (C33_url_roundtrip_any_set_fails)."
  },
  {
   "property": "C34",
   "status": "proved",
   "theorems": [
    "Props.C34_cstr_roundtrip",
    "Props.C34_cstr_roundtrip_one",
    "Props.C34_cstr_memory",
    "Props.C34_tclstr_no_braces",
    "Props.C34_escape_printable"
   ],
   "note": "For every byte block, including several constants joined, and the destination is never overrun."
  },
  {
   "property": "C35",
   "status": "proved",
   "theorems": [
    "Props.C35_splitstrict_pieces",
    "Props.C35_join_spec",
    "Props.C35_join_size",
    "Props.C35_splitstrict_join",
    "Props.C35_join_splitstrict",
    "Props.C35_splitstrict_limit",
    "Props.C35_split_words",
    "Props.C35_split_only_words_fails",
    "Props.C35_split_limit"
   ],
   "note": "splitstrict and join in full; split exactly characterised, including the empty strings it adds at the ends (C35_split_only_words_fails)."
  },
  {
   "property": "C36",
   "status": "partial",
   "theorems": [
    "Props.C36_normalize_partial",
    "Props.C36_normalize_fails",
    "Props.C36_msecadd",
    "Props.C36_tvdiff",
    "Props.C36_msecdiff_partial",
    "Props.C36_msecdiff_truncates_fails",
    "Props.C36_micro_roundtrip",
    "Props.C36_sync_forward"
   ],
   "note": "Missing: normalize of a negative multiple of 10^6 usec and msecdiff with a borrow, both false of the code (C36_normalize_fails, C36_msecdiff_truncates_fails)."
  },
  {
   "property": "C37",
   "status": "proved",
   "theorems": [
    "Props.C37_ver_roundtrip",
    "Props.C37_ver_fits"
   ],
   "note": "All 2^32 values, and the static buffers are not overrun."
  },
  {
   "property": "C38",
   "status": "proved",
   "theorems": [
    "Props.C38_print",
    "Props.C38_roundtrip",
    "Props.C38_bitwise",
    "Props.C38_add",
    "Props.C38_add_sub",
    "Props.C38_port_roundtrip",
    "Props.C38_equality",
    "Props.C38_equality_fails",
    "Props.C38_hash_fails"
   ],
   "note": "Printed addresses (with a port too) are read back, the operators act on all 32 bits, adding and subtracting are modulo 2^32 and undo each other. Beyond the statement: equality within a class is exact and symmetric everywhere; between classes it is not transitive and does not respect hashes (C38_equality_fails, C38_hash_fails)."
  },
  {
   "property": "C39",
   "status": "partial",
   "theorems": [
    "Props.C39_includes",
    "Props.C39_include",
    "Props.C39_mask",
    "Props.C39_normalize_partial",
    "Props.C39_roundtrip",
    "Props.C39_ends",
    "Props.C39_bits_fails",
    "Props.C39_normalize_fails",
    "Props.C39_mask_fails"
   ],
   "note": "includes is exactly containment of addresses for all masks, include is the least such extension, masks of 0 to 32 bits report their bits and are not changed by normalize, printed networks are read back. Partial: bits and normalize are proved for masks that do not start with a zero and a one; for those they are wrong, so that include followed by normalize can lose the network included (C39_bits_fails, C39_normalize_fails); more than 32 bits are not refused (C39_mask_fails)."
  },
  {
   "property": "C40",
   "status": "partial",
   "theorems": [
    "Props.C40_scalar_bytes",
    "Props.C40_scalar",
    "Props.C40_truncated",
    "Props.C40_scalar_read",
    "Props.C40_string_partial",
    "Props.C40_values_partial",
    "Props.C40_format",
    "Props.C40_injective",
    "Props.C40_null_fails",
    "Props.C40_unterminated_fails",
    "Props.C40_unterminated",
    "Props.C40_long_fails",
    "Props.C40_buffer_fails"
   ],
   "note": "Integers of every size, strings, lists of them and buffers are written as the format says, read back, and exactly the bytes written are taken, whatever follows; too few bytes read as 0 and nothing is taken. Partial: null strings are read back as empty ones, strings of 4 GB and more are not read back, strings without their NUL and buffers cut off are read beyond the buffer or end the program (the _fails theorems)."
  },
  {
   "property": "C41",
   "status": "proved",
   "theorems": [
    "Props.C41_map",
    "Props.C41_memory",
    "Props.C41_copy",
    "Props.C41_null_fails"
   ],
   "note": "C41_map: after every history of set calls (NUL-free strings, null allowed for names and values), run on the byte-level memory model whatever new memory holds, no access falls outside the block and get of every non-null name gives what the history says. C41_memory: the exact bytes of the block. C41_copy: the copy constructor. C41_null_fails: get of a null name dereferences NULL when attributes exist. Lengths are natural numbers (int/unsigned overflow not modelled); assignment not modelled."
  },
  {
   "property": "C42",
   "status": "partial",
   "theorems": [
    "Props.C42_crash",
    "Props.C42_others",
    "Props.C42_sessions",
    "Props.C42_atomic_partial",
    "Props.C42_write_error_fails",
    "Props.C42_power_fails"
   ],
   "note": "The process may be killed after any system call, with anything the operating system may answer: the target holds its old content or all bytes that the device took (C42_crash), over any sequence of uses (C42_sessions); no other file is touched and no temporary file remains after close (C42_others). Joined with the stream model: if the flush in close says it is done on a good stream, old content or all bytes accepted by write, at every crash point (C42_atomic_partial). Missing because false: C42_write_error_fails (after a write error close still renames a partial file into place), C42_power_fails (on power loss, as nothing is synchronised before the renaming, though the header speaks of kernel panics). mkstemp is assumed not to pick the name of the target itself."
  },
  {
   "property": "C43",
   "status": "partial",
   "theorems": [
    "Props.C43_exclusive_partial",
    "Props.C43_available",
    "Props.C43_blank_fails",
    "Props.C43_missing_fails",
    "Props.C43_stale_fails",
    "Props.C43_unlock_fails"
   ],
   "note": "Any number of processes, one step for each system call. At most one process believes it has the lock over every sequence of lock, unlock and deaths in which calls do not overlap (C43_exclusive_partial); lock succeeds when there is no file or its owner is dead (C43_available). For overlapping calls the property is false, shown by four different interleavings: C43_blank_fails, C43_missing_fails, C43_stale_fails, C43_unlock_fails. Process ids are not reused in the model, and files are accessible."
  },
  {
   "property": "C44",
   "status": "proved",
   "theorems": [
    "Props.C44_limit",
    "Props.C44_order",
    "Props.C44_sync",
    "Props.C44_running",
    "Props.C44_starts",
    "Props.C44_request",
    "Props.C44_redo_order_fails",
    "Props.C44_twice_fails"
   ],
   "note": "For every history of add and go, with any processes found finished at each go: never more than max run (C44_limit), they start in queue order and only once (C44_order), one with a cookie starts only when all started before has finished and nothing starts while it runs (C44_sync), the run queue is what started and did not finish and an entry with a cookie is alone in it (C44_running). For every infinite schedule in which go keeps being called and each running process is at some time found finished, with max > 0: every queued process starts (C44_starts), and after each add with a cookie a process with it starts when all that was queued has finished (C44_request). Two promises of the header comment are false: C44_redo_order_fails, C44_twice_fails."
  },
  {
   "property": "C45",
   "status": "proved",
   "theorems": [
    "Props.C45_width",
    "Props.C45_line_in_bounds",
    "Props.C45_words_kept",
    "Props.C45_zero_width_fails"
   ],
   "note": "For every width >= 1, text, chunking and flushes: column bound, buffer bound, words kept and kept apart; width 0 is a buffer overflow (C45_zero_width_fails)."
  },
  {
   "property": "C46",
   "status": "proved",
   "theorems": [
    "Props.C46_keeps",
    "Props.C46_last",
    "Props.C46_feed_fails"
   ],
   "note": "C46_keeps: for every history of log pieces (any bytes, sources, levels 0-9, any level limits) and requests, the WvLogBuffer holds exactly the lines that fewer than max_lines later lines of the same source and level follow, in arrival order; lines are specified byte by byte (Spec/Log.lean), including cutting at source/level changes, control characters and trimming. C46_last: so per source and level the last max_lines lines. C46_feed_fails: feed_receiver joins lines. Time stamps are not modelled; max_lines is not negative; sources are not null."
  },
  {
   "property": "C47",
   "status": "proved",
   "theorems": [
    "Props.C47_hash_ignores_case",
    "Props.C47_hash_empty"
   ],
   "note": "For all pairs of strings."
  },
  {
   "property": "C48",
   "status": "partial",
   "theorems": [
    "Props.C48_stack",
    "Props.C48_newest_partial",
    "Props.C48_no_override",
    "Props.C48_registry",
    "Props.C48_newest_fails",
    "Props.C48_rest_fails"
   ],
   "note": "C48_stack: for every valid history of making/destroying moniker objects no assertion fails, and wvcreate calls the top of the prefix's factory stack with exactly the text between the first colon and trailing white space, leaving the registries unchanged. C48_newest_partial / C48_no_override: this is the newest existing registration when objects of a prefix are destroyed in reverse order, in particular whenever override is never used. C48_registry: registries exist exactly while used. Missing because false: C48_newest_fails (destroying the older of two objects unregisters the newer), C48_rest_fails (trailing white space is trimmed)."
  },
  {
   "property": "C49",
   "status": "partial",
   "theorems": [
    "Props.C49_roundtrip_partial",
    "Props.C49_values_partial",
    "Props.C49_plain_value",
    "Props.C49_backslash_fails",
    "Props.C49_braces_fails",
    "Props.C49_quotes_fails",
    "Props.C49_quote_fails",
    "Props.C49_injection_fails",
    "Props.C49_space_fails",
    "Props.C49_empty_fails"
   ],
   "note": "C49_roundtrip_partial and C49_values_partial: after any calls of set, if all names and values that are saved are of the kind that survives (Spec/Ini: matched braces, no backslash unless the text is put in braces, not within braces or quotes, white space at the ends only if that makes the text be put in braces), the saved file is read back without undefined behaviour and gives every value that is not empty at its key and no other such value. C49_plain_value: text without backslashes, quotes, braces, line ends and NULs and with no white space at its ends is of that kind. Missing, and false of the code: all other texts (C49_backslash_fails, C49_braces_fails, C49_quotes_fails, C49_quote_fails, C49_injection_fails, C49_space_fails), and keys with empty values (C49_empty_fails)."
  },
  {
   "property": "C50",
   "status": "partial",
   "theorems": [
    "Props.C50_messages",
    "Props.C50_framing_partial",
    "Props.C50_any_case",
    "Props.C50_newline_fails",
    "Props.C50_cut_fails",
    "Props.C50_reply_fails"
   ],
   "note": "C50_messages: for any messages written one after another (C strings as arguments), any cutting of the bytes into arrivals and any interleaving with reads, what has been read is the first messages in order, each with its arguments minus a last one that has unmatched braces and a newline at its end, and a message that has arrived in full is returned by the next read. C50_any_case: a command word is recognised exactly if it is a command's name ignoring case. C50_framing_partial: without such a last argument the messages come back exactly. Missing: that exception (C50_newline_fails); a message cut off by the end of the connection is accepted (C50_cut_fails); the daemon's reply to an unknown command does not escape it, so it can be read as two messages (C50_reply_fails)."
  },
  {
   "property": "C51",
   "status": "proved",
   "theorems": [
    "Props.C51_list_is_sequence",
    "Props.C51_append_last",
    "Props.C51_find_next_fails"
   ],
   "note": "Over a heap model with an arbitrary allocator. Different from the name find_next, it stays on a matching current element: C51_find_next_fails."
  },
  {
   "property": "C52",
   "status": "partial",
   "theorems": [
    "Props.C52_calls",
    "Props.C52_all_called",
    "Props.C52_at_most_once",
    "Props.C52_exactly",
    "Props.C52_ready",
    "Props.C52_pruned_partial",
    "Props.C52_prepend_fails",
    "Props.C52_twice_fails"
   ],
   "note": "For every history, answers of streams and code of callbacks (which may add, unlink, close streams and start nested rounds): each call is that of the next stream that had reported ready and was not yet called or removed (C52_calls, against the queue of Spec.StreamList), none is left when callback returns (C52_all_called), none is called more often than it reported ready. If callbacks neither unlink nor start a round, exactly those in sure_thing are called, each once, in order (C52_exactly). C52_ready: what post_select does when streams change nothing in it and none is in the list twice. C52_pruned_partial: streams not ok leave the list and good ones stay, when post_select of streams may close and append streams but not prepend. Missing because false: C52_prepend_fails (a prepended stream is removed in place of a dead first one), C52_twice_fails (a stream in the list twice can fail an assertion). Reference counts, timeouts and streams that remove others from within post_select are not modelled."
  },
  {
   "property": "C53",
   "status": "partial",
   "theorems": [
    "Props.C53_calls_partial",
    "Props.C53_watch_partial",
    "Props.C53_set",
    "Props.C53_destructor",
    "Props.C53_forgotten",
    "Props.C53_mounted_fails",
    "Props.C53_changed_fails",
    "Props.C53_once_fails"
   ],
   "note": "C53_calls_partial, C53_watch_partial: after every history of add_callback and del_callback (any letter case, any order of the hash tables), a notified change of a key without a slash at its end calls exactly the watches at it, the recursive ones above it, in order from the root, and, if it was removed, those below it, each once and with the right relative key. C53_set: joined with the in-memory generator mounted at the root, over every history of set. C53_destructor: the destructor's assertion fails exactly if a watch is left elsewhere than at the root; C53_forgotten: removing all watches leaves nothing. Missing, because false: called twice when the root of a generator mounted elsewhere changes (C53_mounted_fails), called when something above is removed though nothing was at its key (C53_changed_fails), several calls for one removal (C53_once_fails). Callbacks that add or remove watches are not modelled."
  },
  {
   "property": "C54",
   "status": "proved",
   "theorems": [
    "Props.C54_preorder",
    "Props.C54_complete",
    "Props.C54_temp"
   ],
   "note": "C54_preorder, C54_complete: in any generator that shows a configuration (Reads; the in-memory generator, INI files, mounts and the others of C22 to C29 are shown to), with paths of bounded length, a loop over the default recursive iterator ends, no key is visited twice, and visited are exactly the keys below the given one that exist, with their values, in preorder (Spec/Walk). C54_temp: for the in-memory generator after any calls, without assumptions. The configuration does not change during the loop. Unlike the others, UniMountGen, when a mount covers the key and none is below it, forwards to that mount's iterator; this shortcut is not modelled."
  },
  {
   "property": "C55",
   "status": "partial",
   "theorems": [
    "Props.C55_sound",
    "Props.C55_patterns_partial",
    "Props.C55_temp_partial",
    "Props.C55_here_fails",
    "Props.C55_once_fails"
   ],
   "note": "C55_patterns_partial, C55_temp_partial: in any generator that shows a configuration (Reads), with paths of bounded length and nothing below what does not exist, from a key without a slash at its end, for every pattern in which nothing comes after \"...\", the loop ends and visits exactly the existing keys the pattern stands for (the specification of C21), each once. C55_sound: for every pattern, only such keys are visited. Missing: names after \"...\", where it is false: C55_here_fails (\".../p\" never finds the key p just below), C55_once_fails (\".../...\" visits keys twice). The iterator's steps are modelled as the list of keys that a loop visits while the configuration does not change."
  },
  {
   "property": "C56",
   "status": "partial",
   "theorems": [
    "Props.C56_linearizable_partial",
    "Props.C56_order",
    "Props.C56_answered_partial",
    "Props.C56_setv_fails",
    "Props.C56_set_fails",
    "Props.C56_get_fails",
    "Props.C56_remove_space_fails",
    "Props.C56_remove_dot_fails",
    "Props.C56_iterator_fails"
   ],
   "note": "Proved (C56_linearizable_partial, C56_order, C56_answered_partial) for get, set, remove, haschildren, iterator, commit and refresh with keys and values that contain no NUL and do not both have unmatched braces and end with a newline, iterators over keys without a slash at the end, and removals of keys that do not end with white space and are not just '.'. Each of these conditions is needed: C56_set_fails, C56_get_fails, C56_iterator_fails, C56_remove_space_fails, C56_remove_dot_fails. setv does nothing at all through this daemon (C56_setv_fails). Missing: recursive iterators, quit and help, time-outs and connections that break, other commands' effects in the middle of a removal or a listing, and which notifications the daemon sends (any may be sent at any time)."
  },
  {
   "property": "C57",
   "status": "partial",
   "theorems": [
    "Props.C57_values_partial",
    "Props.C57_coherent_partial",
    "Props.C57_temp",
    "Props.C57_empty_fails",
    "Props.C57_root_fails",
    "Props.C57_refresh_fails"
   ],
   "note": "For every inner generator that behaves as a configuration and tells its changes (UniTempGen does, C57_temp), every content, and every history of set and remove through the cache or around it, with a refresh somewhere in it: at every key but the root, get returns what the inner generator holds, or null where it holds an empty value (C57_values_partial). If at the first refresh the root has no non-empty value and every key with an empty value has a key below it with another one, get, exists, haschildren and iterators all agree with the inner generator from then on (C57_coherent_partial). Missing in full, because false: keys with an empty value (C57_empty_fails) and the value of the root (C57_root_fails) are not loaded. Also, refresh says that it failed every time but the first (C57_refresh_fails)."
  },
  {
   "property": "C58",
   "status": "proved",
   "theorems": [
    "Props.C58_get",
    "Props.C58_exists",
    "Props.C58_haschildren",
    "Props.C58_once"
   ],
   "note": "For every inner generator that behaves as a configuration and tells its changes (UniTempGen does), and every history of get, exists, set through it, and set around it: get returns what the inner generator returns, which is what the specification says (C58_get), exists and haschildren too (C58_exists, C58_haschildren), and once a key was asked for with get or exists, getting it again in any spelling does not ask the inner generator (C58_once). Notifications are delivered before the call that causes them returns."
  },
  {
   "property": "C59",
   "status": "partial",
   "theorems": [
    "Props.C59_copies_partial",
    "Props.C59_get_partial",
    "Props.C59_set_partial",
    "Props.C59_same_partial",
    "Props.C59_iterator_partial",
    "Props.C59_tidy",
    "Props.C59_append_partial",
    "Props.C59_prepend_partial",
    "Props.C59_temp",
    "Props.C59_root_fails",
    "Props.C59_isok_fails",
    "Props.C59_change_fails",
    "Props.C59_unseen_fails",
    "Props.C59_removed_returns"
   ],
   "note": "For any number of generators that behave as configurations, tell their changes and have a recursive iterator (UniTempGen does, C59_temp), and every orderly history of set, get, commit, refresh, isok, changes by others, losses and returns: each copy holds at every key but the root what the specification says (C59_copies_partial); after a set all that can be reached hold the merged values with that change (C59_set_partial); copies that can be reached and have been noticed agree (C59_same_partial); get gives the merged values through any number of losses during it, as long as one copy is left (C59_get_partial); an iterator shows the merged values one level below the key (C59_iterator_partial); append and prepend merge the new one in (C59_append_partial, C59_prepend_partial). C59_tidy: a history is orderly if after a return the generator is used before isok and before changes by others, and copies that cannot be reached are not changed. Missing: the root and other histories, where the claim is false (C59_root_fails, C59_isok_fails, C59_change_fails, C59_unseen_fails)."
  },
  {
   "property": "C60",
   "status": "proved",
   "theorems": [
    "Props.C60_best_unique",
    "Props.C60_best_exists",
    "Props.C60_get_plain",
    "Props.C60_get_reference",
    "Props.C60_get_decimal",
    "Props.C60_get_none",
    "Props.C60_get_root",
    "Props.C60_exists",
    "Props.C60_haschildren",
    "Props.C60_iterator",
    "Props.C60_defined",
    "Props.C60_set_get",
    "Props.C60_root_hidden",
    "Props.C60_slash_answered",
    "Props.C60_reference_lost",
    "Props.C60_number_undefined"
   ],
   "note": "For every generator that behaves as a configuration and every key: the value at the place that answers, if it is not a reference (C60_get_plain), the name a wildcard stands for if it is (C60_get_reference, C60_get_decimal), null where no place stands for the key (C60_get_none; C60_get_root for the root); exists, haschildren and iterator are those of that place (C60_exists, C60_haschildren, C60_iterator); there is exactly one best place (C60_best_unique, C60_best_exists); set then get (C60_set_get); no write outside the buffer, and get undefined only through atoi (C60_defined). C60_root_hidden, C60_slash_answered, C60_reference_lost and C60_number_undefined are consequences a user may not expect. Negative numbers after the star (documented as undefined) give the last name; they are in the model but not in a theorem. The inner generator is not NULL."
  },
  {
   "property": "C61",
   "status": "partial",
   "theorems": [
    "Props.C61_format_partial",
    "Props.C61_literal",
    "Props.C61_append",
    "Props.C61_overflow",
    "Props.C61_fits",
    "Props.C61_documented_example_fails",
    "Props.C61_blank_character_fails",
    "Props.C61_precision_after_number_fails"
   ],
   "note": "C61_format_partial: for any list of pieces and arguments (at most twenty used, numbers and lengths in int range, no NUL in the result) in which no field has a precision smaller than its width, the formatted string is the specified text; C61_fits weakens the condition to: the text is no longer than what the sizing pass reserved. Missing, because false: fields with a precision below the width. C61_overflow shows that then, when the text is over three bytes longer than reserved, bytes are written past the end of the buffer, and C61_documented_example_fails that the example in the code's own documentation is such a case. C61_literal and C61_append: %s never interprets its argument. C61_blank_character_fails and C61_precision_after_number_fails record two more deviations."
  },
  {
   "property": "C62",
   "status": "partial",
   "theorems": [
    "Props.C62_values_partial",
    "Props.C62_no_leak_partial",
    "Props.C62_copy_shares_partial",
    "Props.C62_offset_tail_fails",
    "Props.C62_neighbour_fails"
   ],
   "note": "C62_values_partial: every program of the modelled operations (declare, make from a char*, copy, copy of an offset(), assign a string, an offset() or a char*, assign v = w.cstr()+i, edit one byte, setsize and fill, append a string or a char*, destroy) that keeps to the rules of the language runs without touching freed or foreign memory and leaves in each variable what the value semantics says, for every allocator that gives free memory. Missing, because false: assignments from a char* that the overlap test takes for a part of the variable's own buffer, unless it is one and the variable's text starts its buffer. C62_neighbour_fails (an unrelated text just behind the buffer: a write past the end of the buffer) and C62_offset_tail_fails (a string made by offset()) are the counterexamples. C62_no_leak_partial and C62_copy_shares_partial have the same condition. A failing calloc, the unsigned link counter's overflow and concurrent threads are not modelled; a WvFastString kept by the program is not one of its variables (only as a parameter)."
  },
  {
   "property": "C63",
   "status": "partial",
   "theorems": [
    "Props.C63_values_partial",
    "Props.C63_no_leak_partial",
    "Props.C63_shares",
    "Props.C63_same_as_values",
    "Props.C63_append_fails",
    "Props.C63_prepend_fails",
    "Props.C63_self_assign_fails",
    "Props.C63_self_append_fails",
    "Props.C63_prepend_empty_segment_fails"
   ],
   "note": "C63_values_partial: every program of the modelled operations (declare, make from a text, copy, join of two keys, part of a key (range, and with it first, last, removefirst, removelast, segment), pop, assign a key or a part of one, append, prepend, destroy) runs without touching deleted or foreign memory and leaves in each variable what the value semantics says. C63_no_leak_partial: every store that is not deleted, but the one of the empty key, is used by a variable. Both are for programs that keep C63_Clear: no self-assignment of a key that shares its segments with no other; append only to a key that shares its segments or begins with the first of them; prepend only to a key that shares its segments or has all of them, and only of a key without empty segments inside; no key appended or prepended to itself. Missing because false: C63_append_fails, C63_prepend_fails, C63_self_assign_fails, C63_self_append_fails and C63_prepend_empty_segment_fails are the counterexamples. C63_shares (copies, parts and their assignment make no new store) and C63_same_as_values (the value operations are Model/Key's) hold without conditions on the program. Not modelled: allocation failure, int overflow of counts, threads."
  },
  {
   "property": "C64",
   "status": "partial",
   "theorems": [
    "Props.C64_match_partial",
    "Props.C64_errors",
    "Props.C64_enough_steps",
    "Props.C64_slash_fails",
    "Props.C64_caret_fails",
    "Props.C64_bracket_fails"
   ],
   "note": "C64_match_partial: every pattern tree whose sets mean something is translated to an expression that the reader of Spec/Ere accepts, found in exactly the strings the pattern matches, where sets may match a slash; and exactly those glob(7) says if no set includes the slash or the string has none. C64_errors: a text is refused just if it is not a pattern. C64_enough_steps: the bound on the steps in the model changes nothing. Missing: sets that include the slash match it (C64_slash_fails), [^^ (C64_caret_fails), [!] with ] first (C64_bracket_fails). regcomp and regexec are represented by Spec/Ere."
  },
  {
   "property": "C65",
   "status": "proved",
   "theorems": [
    "Props.C65_coroutines",
    "Props.C65_asserts",
    "Props.C65_lives"
   ],
   "note": "The implementation shows a sequence of actions (who does which action with which results) if and only if the specification of coroutines does (C65_coroutines); it fails an assertion exactly where the specification allows no action (C65_asserts); what it keeps exists exactly while there is a handle or it is active, and stacks are not shared (C65_lives). For every deterministic program of callbacks."
  },
  {
   "property": "C66",
   "status": "partial",
   "theorems": [
    "Props.C66_answers_partial",
    "Props.C66_completes_partial",
    "Props.C66_truncated_fails",
    "Props.C66_colon_fails",
    "Props.C66_peek_fails"
   ],
   "note": "C66_answers_partial: for every server that answers in HTTP/1.1 with a length or in chunks, every history of new requests, arriving bytes and calls of execute without a hang-up: nothing asserts; requests are sent once each and in order; those before a point have exactly their answers, marked complete, the next one a part of its answer, all others nothing; the stream is closed only with pipelining, when it was judged broken. C66_completes_partial: from every such state some further arrivals and calls complete all requests that were sent, and these are all or as many as the connection allows, unless it was closed in that way. Missing: a page cut off by a hang-up is marked complete without an error (C66_truncated_fails), colons in the reason (C66_colon_fails), HEAD over HTTP/1.0 (C66_peek_fails), bodies that end with the connection."
  },
  {
   "property": "C67",
   "status": "partial",
   "theorems": [
    "Props.C67_routing_partial",
    "Props.C67_nothing_else",
    "Props.C67_answered_partial",
    "Props.C67_way_back_partial",
    "Props.C67_stops_exactly",
    "Props.C67_release_fails",
    "Props.C67_hijack_fails",
    "Props.C67_sender_fails",
    "Props.C67_lost_fails"
   ],
   "note": "Proved for every history in which connections release only names that they have (with any other the bus fails an assertion, C67_stops_exactly): who gets which message, with which sender, is what the specification says; each call of the bus is answered once; answers to the sender of a call get back to the caller if nobody asks for its unique name; nobody gets anything after the bus noticed that it has gone. Missing because the code does otherwise: any client can stop the bus, can take the unique name of another one, can send broadcasts in the name of others, and calls to a connection that has just broken get no answer (the four _fails)."
  },
  {
   "property": "C68",
   "status": "partial",
   "theorems": [
    "Props.C68_once_partial",
    "Props.C68_answered_partial",
    "Props.C68_filters",
    "Props.C68_stops_exactly",
    "Props.C68_timeout_fails",
    "Props.C68_resend_fails",
    "Props.C68_wait_fails",
    "Props.C68_close_fails"
   ],
   "note": "Proved for every history in which no message is sent again from inside the function that runs with its answer: the function of a request is called at most once and only with the answer to it; when the answer to an open request arrives and no function runs, exactly that function is called; other messages go to the filters by priority until one handles them; freed memory is used only when a time-out is over (C68_stops_exactly). Missing because the code does otherwise: time-outs use freed memory, sending a message again from its function calls the function twice and uses freed memory, no answers arrive while a function that was called for a message runs, and closing leaves requests unanswered (the four _fails)."
  },
  {
   "property": "C69",
   "status": "partial",
   "theorems": [
    "Props.C69_parse_partial",
    "Props.C69_reparse_partial",
    "Props.C69_at_fails",
    "Props.C69_file_fails",
    "Props.C69_short_fails",
    "Props.C69_protocol_fails",
    "Props.C69_port_fails",
    "Props.C69_password_fails",
    "Props.C69_noname_fails",
    "Props.C69_feed_fails"
   ],
   "note": "Proved: every URL that is written from parts (without the characters that end them) is read into these parts, with any white space around; what was read is printed so that it is read as the same URL again. Missing, and false of the code: a '@' in the path of a URL without a user, file URLs are never ok, short texts are read behind their end, unknown protocols that begin like a known one and ports over 65535 are taken, printing loses a password without a user, a '@' after an empty user and a form feed at the end (C69_*_fails)."
  },
  {
   "property": "C70",
   "status": "partial",
   "theorems": [
    "Props.C70_read_partial",
    "Props.C70_write_partial",
    "Props.C70_flush",
    "Props.C70_queuemin_fails",
    "Props.C70_eof_fails",
    "Props.C70_limit_fails",
    "Props.C70_nowrite_fails",
    "Props.C70_order_fails"
   ],
   "note": "C70_read_partial: for all chains, all answers of the stream below and all histories without queuemin, what was read from below is what went into the chain and what it did not take, and what the chain gave out is what the user read followed by what is still to be read; once closed, the chain was asked to finish after the last byte (for chains that take all when asked to flush). C70_write_partial: the same for writing, if the stream below takes everything, there are no errors and nowrite is not called. C70_flush: after flush everything written is below. Missing because the code does otherwise: queuemin, reading only while the stream is ok, a stream below that takes less, nowrite, errors of the write chain (the _fails theorems)."
  },
  {
   "property": "C71",
   "status": "partial",
   "theorems": [
    "Props.C71_tree_partial",
    "Props.C71_confined_partial",
    "Props.C71_null_fails",
    "Props.C71_case_fails",
    "Props.C71_link_fails"
   ],
   "note": "C71_tree_partial: for all file systems in which the directory can be used and which have no links on the way to it or below it, and all histories in which keys set to NULL (and the root) have something over them that is there, or a value over them, get and the iterator are those of the tree the history gives. C71_confined_partial: with the same file systems, and all histories, nothing outside of the directory changes. Missing because the code does otherwise: NULL on missing keys (C71_null_fails), case (C71_case_fails), links to directories (C71_link_fails)."
  },
  {
   "property": "C72",
   "status": "partial",
   "theorems": [
    "Props.C72_values_partial",
    "Props.C72_get",
    "Props.C72_fuzzy_partial",
    "Props.C72_callbacks",
    "Props.C72_saved_partial",
    "Props.C72_flush",
    "Props.C72_crash_partial",
    "Props.C72_error_keeps",
    "Props.C72_unwritable",
    "Props.C72_append",
    "Props.C72_trim_fails",
    "Props.C72_empty_fails",
    "Props.C72_twice_fails",
    "Props.C72_fuzzy_fails",
    "Props.C72_names_fails",
    "Props.C72_nodir_fails",
    "Props.C72_window_fails",
    "Props.C72_stuck_fails"
   ],
   "note": "Values: proved over all histories for configurations without empty values and entries that are there twice, and entry names without white space around them (C72_values_partial; C72_trim_fails, C72_empty_fails, C72_twice_fails). Inheritance with circles: proved for all configurations (C72_get). fuzzy_get: proved for one entry (C72_fuzzy_partial), false for several (C72_fuzzy_fails). Callbacks: proved (C72_callbacks). Saving: proved for all files and all histories of plain names and values (C72_saved_partial, C72_flush), false for others (C72_names_fails) and when the directory is not there (C72_nodir_fails). Crashes: proved for every point after the file is marked (C72_crash_partial), false before (C72_window_fails), and the mark can stay for ever (C72_stuck_fails). Files with errors are kept: proved (C72_error_keeps)."
  },
  {
   "property": "C73",
   "status": "partial",
   "theorems": [
    "Props.C73_sent_partial",
    "Props.C73_flush",
    "Props.C73_received",
    "Props.C73_ready",
    "Props.C73_verified",
    "Props.C73_delay_fails",
    "Props.C73_limit_fails",
    "Props.C73_close_fails",
    "Props.C73_early_fails",
    "Props.C73_zero_fails",
    "Props.C73_nowrite_fails"
   ],
   "note": "Proved for all answers of the SSL library and all histories without outbuf_limit and with delay_output(true) only after the handshake (C73_sent_partial, C73_flush); what is read (C73_received, C73_ready) and the certificate (C73_verified) for all histories. With delay_output before the handshake, outbuf_limit, close, or noread and nowrite before the handshake the property is false of the code, see the theorems named _fails. A handshake that fails with 0 is taken to be done if there is no callback."
  },
  {
   "property": "C74",
   "status": "partial",
   "theorems": [
    "Props.C74_console",
    "Props.C74_force",
    "Props.C74_rules",
    "Props.C74_bad_rules",
    "Props.C74_space_fails",
    "Props.C74_overlap_fails",
    "Props.C74_heard",
    "Props.C74_fork_fails"
   ],
   "note": "C74_console and C74_force give the text on the console for all messages, rules and orders of the table of rules; C74_rules and C74_bad_rules what is read as rules; C74_heard who hears a message and the bounded recursion. Missing, as false: names with a space in rules (C74_space_fails), overlapping rules (C74_overlap_fails), and receivers made before a fork that are destroyed in the child (C74_fork_fails). Short writes to the console are not modelled."
  },
  {
   "property": "C75",
   "status": "partial",
   "theorems": [
    "Props.C75_size_partial",
    "Props.C75_size_iec_partial",
    "Props.C75_kilobytes_partial",
    "Props.C75_size_fails",
    "Props.C75_duration",
    "Props.C75_grouped_partial",
    "Props.C75_zero_fails"
   ],
   "note": "C75_size_partial and C75_size_iec_partial: for blocks of 1000^k (1024^k) bytes, k <= 6, and 10 * blocks < 2^64: fewer bytes than 1000 (1024) are counted, others are shown as the exact number rounded once to tenths of the smallest unit that gives less than 1000 (1024), at least 1.0, and never above YB (YiB). C75_kilobytes_partial: the same for sizektoa and sizekitoa. C75_duration: secondstoa, for every number. C75_grouped_partial: metriculate for every 64-bit number but 0 and the smallest; the text is exactly as long as the buffer. Missing, because false: C75_size_fails: 2^61 bytes are shown as 461.2 PB, 1234 blocks of 512 bytes as 614.4 kB, 2 blocks of 2^63+1 bytes as 2 bytes; C75_zero_fails: metriculate(0) is empty."
  },
  {
   "property": "C76",
   "status": "partial",
   "theorems": [
    "Props.C76_replace",
    "Props.C76_replace_same",
    "Props.C76_replace_empty_fails",
    "Props.C76_undupe",
    "Props.C76_around",
    "Props.C76_around_empty_fails",
    "Props.C76_substr_partial",
    "Props.C76_substr_fails",
    "Props.C76_spacecat_partial",
    "Props.C76_spacecat_fails",
    "Props.C76_path",
    "Props.C76_path_root_fails",
    "Props.C76_depunctuate_partial",
    "Props.C76_depunctuate_fails",
    "Props.C76_backslash",
    "Props.C76_strcount_partial",
    "Props.C76_strcount_fails",
    "Props.C76_lookup",
    "Props.C76_in_place",
    "Props.C76_hexdump",
    "Props.C76_hostname",
    "Props.C76_hostname_text",
    "Props.C76_distinguished"
   ],
   "note": "Proved for all texts: C76_replace (text to replace not empty), C76_replace_same, C76_undupe, C76_around (neither text empty), C76_path (a path that is not only slashes), C76_backslash, C76_lookup, C76_in_place, C76_hexdump (up to 4 GB; also that it fits), C76_hostname, C76_hostname_text, C76_distinguished (labels that are not empty). Partial: C76_substr_partial (line not empty, pos + len < 2^32), C76_spacecat_partial (first text empty or not only separators), C76_depunctuate_partial (one mark), C76_strcount_partial (not NUL). The rest is false of the code: C76_replace_empty_fails, C76_substr_fails, C76_spacecat_fails, C76_depunctuate_fails, C76_strcount_fails, C76_around_empty_fails, C76_path_root_fails."
  },
  {
   "property": "C77",
   "status": "partial",
   "theorems": [
    "Props.C77_alarm_partial",
    "Props.C77_alarm_fails",
    "Props.C77_no_alarm",
    "Props.C77_alarm_wait",
    "Props.C77_tick_rate",
    "Props.C77_tick_steady_partial",
    "Props.C77_tick_lost_fails",
    "Props.C77_tick_dropped_partial",
    "Props.C77_tick_dropped_fails",
    "Props.C77_tick_compensate_fails",
    "Props.C77_tick_clock",
    "Props.C77_tick_wait",
    "Props.C77_tick_off",
    "Props.C77_daily_next_partial",
    "Props.C77_daily_even_partial",
    "Props.C77_daily_new_partial",
    "Props.C77_daily_configure_partial",
    "Props.C77_daily_not_early",
    "Props.C77_daily_rings",
    "Props.C77_daily_even_fails",
    "Props.C77_daily_wait_fails",
    "Props.C77_daily_once_fails",
    "Props.C77_daily_again_fails",
    "Props.C77_daily_zero_fails",
    "Props.C77_resample_partial",
    "Props.C77_rate_new",
    "Props.C77_rate_estimate",
    "Props.C77_rate_forgets",
    "Props.C77_resample_fails"
   ],
   "note": "For every clock, also one that is set back: an alarm rings when its milliseconds have passed (unless the clock was set back between the last look and its setting), and the first tick of a timer is due likewise. For every sequence of rounds on a clock that goes forwards: k ticks take at least k periods; the ticks are those of an ideal clock if nothing else makes the stream ready and none is seen more than 101 periods late. For numbers of daily events that divide 86400, in a fixed time zone: the next event is the first of the evenly spread moments after the last; it does not ring early and rings when it is due at the beginning of a round. WvRateAdjust: exact account of the samples for each call on a clock that is not set back. False in general: see the C77_..._fails theorems (uneven events, endless wait, ringing in every round, a next event in microseconds, default number; early alarm; lost and never compensated ticks; no output after the clock was set back)."
  },
  {
   "property": "C78",
   "status": "partial",
   "theorems": [
    "Props.C78_walk",
    "Props.C78_end",
    "Props.C78_unreadable",
    "Props.C78_root_fails",
    "Props.C78_same_device_partial",
    "Props.C78_same_device_fails",
    "Props.C78_rewind_partial",
    "Props.C78_rewind_names",
    "Props.C78_rewind_fails",
    "Props.C78_up_where",
    "Props.C78_up_partial",
    "Props.C78_up_fails",
    "Props.C78_up_top"
   ],
   "note": "C78_walk: for every good tree (names nonempty, without slash, distinct in a directory), dirname that is not empty without its trailing slash, and n, the first n files shown without skip_mounts are the first n of the walk in order. C78_end: next is false after everything was shown. C78_unreadable: nothing is shown if the directory can not be opened. C78_same_device_partial: with skip_mounts the walk goes into directories on the device d0 only, if the first file found is on d0 (missing: d0 the device of the directory itself; C78_same_device_fails). C78_rewind_partial: after rewind at depth 1 everything is shown again; C78_rewind_names: at any depth, but for the relative name (C78_rewind_fails). C78_up_where, C78_up_partial: after up at depth > 1 the rest of the walk without what is below the directory left, but for the relative name (C78_up_fails); C78_up_top: at depth 1 next is false once. C78_root_fails: '/' shows nothing."
  },
  {
   "property": "C79",
   "status": "partial",
   "theorems": [
    "Props.C79_copy_partial",
    "Props.C79_copy_keep",
    "Props.C79_copy_missing",
    "Props.C79_copy_two_partial",
    "Props.C79_move",
    "Props.C79_move_missing",
    "Props.C79_move_above",
    "Props.C79_copy_keep_fails",
    "Props.C79_copy_missing_fails",
    "Props.C79_move_fails"
   ],
   "note": "Proved for every generator that behaves as a configuration (Behaves, met by UniTempGen with any history), with the loop shown to end: C79_copy_partial (one root, neither key below the other, src exists, and force or dst does not exist itself), C79_copy_two_partial (two roots, any keys), C79_copy_keep (without force, dst existing: as if dst itself had not been there), C79_copy_missing (src does not exist: dst is removed), C79_move, C79_move_missing, C79_move_above (moving onto itself or a key above removes all of dst). Disagreements with the documentation: C79_copy_keep_fails (dst itself is overwritten without force), C79_copy_missing_fails (dst is removed without force if src does not exist), C79_move_fails (dst is replaced, the key is not left as a subkey). Missing: copying to a key below src in the same root, of which the header warns; roots with several mounts."
  },
  {
   "property": "C80",
   "status": "partial",
   "theorems": [
    "Props.C80_number_partial",
    "Props.C80_number_fails",
    "Props.C80_yes",
    "Props.C80_no",
    "Props.C80_default",
    "Props.C80_roundtrip_partial",
    "Props.C80_octal"
   ],
   "note": "Proved for all texts: C80_number_partial (a text that begins with an integer, as in Spec/IntText, is that integer, if it is one that an int can have), C80_yes, C80_no, C80_default (all other texts and a missing key), C80_roundtrip_partial (setmeint then getmeint, on any generator that behaves as a configuration, for every int but the smallest), C80_octal (010 is 8, 09 is 0). Missing: an integer that does not fit an int is converted to another one, C80_number_fails; the smallest int, the text of which is undefined behaviour, see C32."
  },
  {
   "property": "C81",
   "status": "partial",
   "theorems": [
    "Props.C81_values",
    "Props.C81_fuzzy",
    "Props.C81_request",
    "Props.C81_request_error",
    "Props.C81_raw",
    "Props.C81_clean_partial",
    "Props.C81_load",
    "Props.C81_values_fails",
    "Props.C81_maybeset_fails",
    "Props.C81_request_fails",
    "Props.C81_clean_fails",
    "Props.C81_section_fails",
    "Props.C81_inherit_fails"
   ],
   "note": "Values after any history, fuzzy_get, requests and loading are proved in full for names without slashes. isclean is proved only for set, delete_section and flush: setint and setting through a section leave the configuration clean (C81_clean_fails). The other disagreements of the code with its interface are C81_values_fails, C81_maybeset_fails, C81_request_fails, C81_section_fails and C81_inherit_fails."
  },
  {
   "property": "C82",
   "status": "partial",
   "theorems": [
    "Props.C82_calls_partial",
    "Props.C82_flag",
    "Props.C82_asked",
    "Props.C82_hold",
    "Props.C82_added",
    "Props.C82_value_fails",
    "Props.C82_added_fails",
    "Props.C82_del_fails",
    "Props.C82_entry_fails"
   ],
   "note": "Calls are proved exact for every change of a UniTempGen after any history; the value told is the value after the change except for a section itself, where it is always empty (C82_value_fails). While load_file works nobody is called (C82_hold). Adding and removing is proved as it is keyed by cookie and the exact texts; where that differs from what it covers see C82_added_fails, C82_del_fails and C82_entry_fails."
  },
  {
   "property": "C83",
   "status": "partial",
   "theorems": [
    "Props.C83_getperm",
    "Props.C83_names",
    "Props.C83_secure",
    "Props.C83_clear_fails"
   ],
   "note": "For every inner generator that behaves as a configuration, every history of calls that starts from an empty tree, all paths and credentials. Partial only in that taking an owner or group away takes more away (C83_clear_fails), as the specification says."
  },
  {
   "property": "C84",
   "status": "partial",
   "theorems": [
    "Props.C84_reads",
    "Props.C84_prints",
    "Props.C84_roundtrip",
    "Props.C84_rejects_partial",
    "Props.C84_cut_fails",
    "Props.C84_digits_fails"
   ],
   "note": "Round trip and reading of everything that writes a UUID are proved for all. Rejection only up to the groups and dashes (C84_rejects_partial): short last groups (C84_cut_fails) and blanks, signs and prefixes (C84_digits_fails) are accepted by the code."
  },
  {
   "property": "C85",
   "status": "partial",
   "theorems": [
    "Props.C85_get",
    "Props.C85_handler_refs",
    "Props.C85_static_get",
    "Props.C85_static_refs",
    "Props.C85_category",
    "Props.C85_category_later",
    "Props.C85_resolve",
    "Props.C85_resolve_refs",
    "Props.C85_colon_fails"
   ],
   "note": "C85_get: after any calls the first handler that answers, in the order of the specification, gives the object. C85_handler_refs: each handler in the list is referenced once, all others have a balance of 0. C85_static_get, C85_static_refs: the object of a UUID, one reference for the caller, and one held per UUID. C85_category, C85_category_later: each registered component once with its first string; what was obtained earlier is a suffix of what is obtained later. C85_resolve: a name gives an object iff the specification says that it stands for it. C85_resolve_refs: what is taken is given back but for one reference to the result. C85_colon_fails: a registered name with a colon is not found. Loading of modules and the end of the service manager are not modelled."
  },
  {
   "property": "C86",
   "status": "partial",
   "theorems": [
    "Props.C86_weak_partial",
    "Props.C86_weak_fails",
    "Props.C86_destructor",
    "Props.C86_ptr",
    "Props.C86_copy_fails"
   ],
   "note": "C86_weak_partial: for all allowed histories in which a weak reference is still held when the object goes, or none was ever asked for, nothing is used after it was destroyed, the answers are those of the specification, and object and weak reference are freed exactly when the counts say. C86_weak_fails: without that condition the weak reference is used after it was destroyed. C86_destructor: balanced use of the own object in a destructor does not enter it again. C86_ptr: the pointers to an object and the references they hold are equal in number (construction from a plain pointer or from another type, assignment, destruction). C86_copy_fails: a copy to the same type takes no reference."
  },
  {
   "property": "C87",
   "status": "partial",
   "theorems": [
    "Props.C87_date",
    "Props.C87_year",
    "Props.C87_guess_first",
    "Props.C87_guess",
    "Props.C87_eplf",
    "Props.C87_unix",
    "Props.C87_msdos",
    "Props.C87_vms",
    "Props.C87_safe",
    "Props.C87_short",
    "Props.C87_overflow_fails",
    "Props.C87_leap_fails"
   ],
   "note": "Calendar, guessing of the year, the four formats, refusal of lines like those of ls that are too short (C87_short) and safety for every line are proved. Signed overflow on long numbers is possible (C87_overflow_fails), and the 29th of February of a common year is taken for another day (C87_leap_fails)."
  },
  {
   "property": "C88",
   "status": "partial",
   "theorems": [
    "Props.C88_connected",
    "Props.C88_waiting",
    "Props.C88_attempt",
    "Props.C88_lost",
    "Props.C88_pace_partial",
    "Props.C88_refs",
    "Props.C88_spacing_fails",
    "Props.C88_null_fails",
    "Props.C88_setv_fails",
    "Props.C88_recursive"
   ],
   "note": "C88_connected, C88_waiting, C88_attempt, C88_lost and C88_recursive give every call outright, over any inner generator. C88_refs and C88_pace_partial hold in all histories with a clock that does not go back. Partial because the documentation's 'at least the interval since the last attempt' is false (C88_spacing_fails: two attempts at the same time after a long outage; C88_null_fails: an attempt in every call when nothing can be made), and setv and flush_buffers do not behave like the other calls (C88_setv_fails). Notifications and what the reconnect callback does are not modelled."
  },
  {
   "property": "C89",
   "status": "partial",
   "theorems": [
    "Props.C89_build_partial",
    "Props.C89_char_partial",
    "Props.C89_char_fails",
    "Props.C89_varray",
    "Props.C89_nesting",
    "Props.C89_abort",
    "Props.C89_walk",
    "Props.C89_rewind",
    "Props.C89_int_partial",
    "Props.C89_int_fails",
    "Props.C89_uint",
    "Props.C89_text_number",
    "Props.C89_text_partial",
    "Props.C89_all_partial",
    "Props.C89_all_fails",
    "Props.C89_text_fails"
   ],
   "note": "Writing: C89_build_partial (any nesting, little-endian), C89_char_partial, C89_varray, C89_nesting, C89_abort. Reading: C89_walk, C89_rewind, C89_int_partial, C89_uint, C89_text_number, C89_text_partial, C89_all_partial. Partial because of C89_int_fails (get_int of an unsigned number in the upper half of its type is negative), C89_char_fails (a byte becomes 0 on a big-endian machine), C89_all_fails (dots after exactly twenty arguments), C89_text_fails (the text of the smallest 64-bit number is undefined). libdbus is assumed to keep what it is given; element types, UTF-8 and doubles as numbers are not modelled."
  },
  {
   "property": "C90",
   "status": "partial",
   "theorems": [
    "Props.C90_number_partial",
    "Props.C90_number_fails",
    "Props.C90_process_partial",
    "Props.C90_removed_partial",
    "Props.C90_removed_long_partial",
    "Props.C90_count_fails",
    "Props.C90_again_fails",
    "Props.C90_late_fails",
    "Props.C90_rebuild_fails",
    "Props.C90_remove_fails",
    "Props.C90_dangling_fails",
    "Props.C90_description_fails"
   ],
   "note": "C90_process_partial: first call after declaring options with different names (letters and digits as short names, no empty text as an argument), all command lines; C90_removed_partial: the same after an option with only a short name was removed; C90_removed_long_partial: the same after the long name of an option was removed; C90_number_partial: which texts int and long options take. Partial because of C90_number_fails (the empty text is 0), C90_count_fails (NO_EXIT_ON_ERRORS: a wrong number of arguments is not reported), C90_again_fails, C90_late_fails, C90_rebuild_fails, C90_remove_fails, C90_dangling_fails and C90_description_fails. argp is modelled only as far as it calls the parser; abbreviations, --help, float and double options are not modelled."
  },
  {
   "property": "C91",
   "status": "partial",
   "theorems": [
    "Props.C91_name",
    "Props.C91_text",
    "Props.C91_exclusive_partial",
    "Props.C91_sequential_partial",
    "Props.C91_available",
    "Props.C91_refused",
    "Props.C91_nested",
    "Props.C91_stale_fails",
    "Props.C91_recreate_fails",
    "Props.C91_exit_fails",
    "Props.C91_crash_fails"
   ],
   "note": "Proved for every schedule of system calls when no process dies and no lock file names a process that does not exist (C91_exclusive_partial), and for calls that do not overlap with processes dying at any point of a call (C91_sequential_partial). In general it is false: C91_stale_fails, C91_recreate_fails, C91_exit_fails; C91_crash_fails: a crash before the number is written blocks the device for ever. C91_available, C91_refused, C91_nested: what lock, unlock and the destructor do. C91_name, C91_text: names and contents of lock files. Numbers of processes are not used again in the model."
  },
  {
   "property": "C92",
   "status": "partial",
   "theorems": [
    "Props.C92_users",
    "Props.C92_up_partial",
    "Props.C92_down_partial",
    "Props.C92_kept_partial",
    "Props.C92_result_partial",
    "Props.C92_created_fails",
    "Props.C92_temporary_fails",
    "Props.C92_foreign_fails"
   ],
   "note": "C92_users: for all histories no invalid pointer is used and each object has what it should. C92_up_partial, C92_down_partial, C92_kept_partial, C92_result_partial: interfaces and results, if the process may make interfaces, none were there before and at most 256 addresses are ever added. C92_created_fails, C92_foreign_fails: without these conditions. C92_temporary_fails: an address goes away for a while when edits of two objects overlap, which the documentation rules out."
  },
  {
   "property": "C93",
   "status": "partial",
   "theorems": [
    "Props.C93_first_partial",
    "Props.C93_leftover_fails",
    "Props.C93_self_fails",
    "Props.C93_negative_fails",
    "Props.C93_empty_fails"
   ],
   "note": "C93_first_partial: for every history of proper calls on any number of objects no assertion fails, and isok, the number, errstr and the number of calls of the callback are those of the first error since the last reset. Proper: numbers told without a text are not negative, numbers told with a text are not 0, texts are not empty, no object is assigned to itself. Outside of that the claim is false or an assertion fails: C93_leftover_fails, C93_self_fails, C93_negative_fails, C93_empty_fails. Subclasses that override isok, geterr or seterr (streams) and callbacks that call back into the object are not modelled."
  },
  {
   "property": "C94",
   "status": "partial",
   "theorems": [
    "Props.C94_walk_partial",
    "Props.C94_after_fails",
    "Props.C94_fresh_fails",
    "Props.C94_null_fails"
   ],
   "note": "C94_walk_partial: for every qsort that sorts, every consistent comparison function (also one that sorts with other sorters, to any depth) and every list without NULL elements, rewind and the loop visit a sorted permutation of the elements found while copying (up to the number counted before) and end at the NULL; the static comparison function afterwards is the one before. That the C library's qsort sorts is an assumption, shown satisfiable by insertion sort. False or undefined outside: C94_after_fails (next after the end), C94_fresh_fails (before rewind), C94_null_fails (NULL elements)."
  },
  {
   "property": "C95",
   "status": "partial",
   "theorems": [
    "Props.C95_received_partial",
    "Props.C95_progress",
    "Props.C95_sent",
    "Props.C95_quiet",
    "Props.C95_corrupt_fails",
    "Props.C95_garbage_fails"
   ],
   "note": "C95_received_partial: for all messages, all pieces and all amounts read, what was delivered is exactly the list of messages complete in what was read so far. C95_progress: each post_select takes up to 4096 bytes of what the stream gives. C95_sent, C95_quiet: the sending side. libdbus is a parameter with the contract BusLib, shown satisfiable. Only for streams of valid messages: C95_corrupt_fails, C95_garbage_fails. Callbacks, authentication and timeouts are not part of this model."
  },
  {
   "property": "C96",
   "status": "partial",
   "theorems": [
    "Props.C96_stop_partial",
    "Props.C96_running_partial",
    "Props.C96_noabort",
    "Props.C96_signals_partial",
    "Props.C96_returns_partial",
    "Props.C96_restart_fails",
    "Props.C96_leftover_fails",
    "Props.C96_escape_fails",
    "Props.C96_stranger_fails"
   ],
   "note": "C96_stop_partial, C96_running_partial: for all histories in which start is called only when nothing runs, stop and wait are used with the children, and no process leaves its group: when stop returns, or running is false, nothing is left. C96_returns_partial: stop returns in such histories if, after the SIGKILL, nothing else happens and numbers are not reused. C96_signals_partial: for all histories signals hit only our processes, if numbers are not reused. C96_noabort: no assertion fails, for all histories. Outside: C96_restart_fails, C96_leftover_fails, C96_escape_fails, C96_stranger_fails. Not modelled: pid files, exit status, environment, failure of fork."
  },
  {
   "property": "C97",
   "status": "partial",
   "theorems": [
    "Props.C97_order_partial",
    "Props.C97_run",
    "Props.C97_restart",
    "Props.C97_die",
    "Props.C97_sticky",
    "Props.C97_signals",
    "Props.C97_refused",
    "Props.C97_pidfile",
    "Props.C97_hup_fails",
    "Props.C97_unload_fails",
    "Props.C97_race_fails"
   ],
   "note": "C97_order_partial: for any requests and signals during any callbacks, the callbacks come in the order load, (start, run..., stop)..., unload, and a run that ends (not killed) ends after unload; missing: the case that the pid file names a living process (C97_unload_fails). C97_run: run is called only if neither exit nor restart is wanted. C97_restart: stop, then start. C97_die: stop if running, unload, end with the status asked for. C97_sticky: a wish to exit is never dropped. C97_signals: the first SIGTERM and the first SIGHUP, and that the second SIGTERM kills. C97_refused: no start if the pid file names a living process. C97_pidfile: the pid file is written before load and removed after unload. C97_unload_fails, C97_race_fails: two daemons with one pid file can run. C97_hup_fails: the second SIGHUP is ignored."
  },
  {
   "property": "C98",
   "status": "partial",
   "theorems": [
    "Props.C98_conserve",
    "Props.C98_compress",
    "Props.C98_roundtrip",
    "Props.C98_prefix",
    "Props.C98_error",
    "Props.C98_limit_fails",
    "Props.C98_truncated_fails"
   ],
   "note": "For every zlib that keeps the contract Spec.Gzip.Codec (satisfied by the codec of Props.Gzp.toy_codec): C98_compress: without a limit, after any pieces, flushes and finish, zlib got exactly the input and was brought to its end, the output is what it wrote, all loops end. C98_roundtrip: a decompressor without a limit that is fed the result (and anything after it) in any pieces puts out exactly the input, is finished, and leaves what follows. C98_prefix: with a limit or unfinished, the output so far is a prefix. C98_error: if zlib fails, encode and finish fail and the encoder is not ok any more. C98_conserve: for any zlib at all, encode takes from the input and adds to the output exactly what zlib took and wrote, at most the limit. Missing: ignore_decompression_errors. C98_limit_fails: finish with a limit reports success without writing the end. C98_truncated_fails: cut off data is not reported."
  },
  {
   "property": "C99",
   "status": "partial",
   "theorems": [
    "Props.C99_retained",
    "Props.C99_size",
    "Props.C99_noappend",
    "Props.C99_current",
    "Props.C99_old",
    "Props.C99_unrelated_fails",
    "Props.C99_midline_fails"
   ],
   "note": "C99_retained: for any directory (each name once, log files not older than their names say), any events with times that do not go back: a line, once written, is whole in a file that the directory has under the name of the day on which it was begun or written, until keep_for days later (for ever if 0). C99_size: a line is begun only in a file of at most the maximal size. C99_noappend: with allow_append off no file from before is changed. C99_current: the link. C99_old: only files older than keep_for days are removed. Missing: failing system calls, changes of the time zone. C99_unrelated_fails: files whose names begin like the log's are removed too. C99_midline_fails: what is added to an unfinished line keep_for days later can be lost."
  },
  {
   "property": "C100",
   "status": "partial",
   "theorems": [
    "Props.C100_validate_partial",
    "Props.C100_dates_partial",
    "Props.C100_forged",
    "Props.C100_peer_partial",
    "Props.C100_issue",
    "Props.C100_noauthority",
    "Props.C100_self",
    "Props.C100_date_fails",
    "Props.C100_match_fails",
    "Props.C100_serial_fails",
    "Props.C100_request_fails",
    "Props.C100_signs"
   ],
   "note": "C100_validate_partial, C100_dates_partial: exactly what validate accepts, for readable dates; C100_forged: whatever the dates, nothing that the authority did not sign and issue; C100_peer_partial: the decision of an SSL stream; C100_issue: what an authority makes of any request validates for exactly ten years; C100_noauthority: what is no authority makes nothing that validates; C100_self: new self-signed certificates; C100_signs: signcert signs exactly if there is a key that fits the certificate and the certificate may sign others, and otherwise changes nothing. Partial because of C100_date_fails (unreadable dates are accepted), C100_match_fails (the check that key and certificate match), C100_serial_fails (serial numbers repeat within a second) and C100_request_fails (what signreq returns on failure). OpenSSL is modelled symbolically: a signature is the fact with which key it was made."
  },
  {
   "property": "C101",
   "status": "partial",
   "theorems": [
    "Props.C101_revoked",
    "Props.C101_text",
    "Props.C101_list_partial",
    "Props.C101_forged",
    "Props.C101_life",
    "Props.C101_ocsp",
    "Props.C101_critical_fails",
    "Props.C101_date_fails",
    "Props.C101_subordinate_fails",
    "Props.C101_blank_fails",
    "Props.C101_ocsp_fails",
    "Props.C101_signs"
   ],
   "note": "C101_revoked, C101_text: exactly what is revoked after any additions, also by the text of the number; C101_list_partial: exactly which lists are valid, for readable dates and a first extension that is not critical; C101_forged without these conditions; C101_life: making, adding, signing again, thirty days; C101_ocsp: when a response says good or revoked; C101_signs: signcrl signs exactly if there is a key that fits and the certificate may sign lists, and otherwise changes nothing. Partial because of C101_critical_fails, C101_date_fails, C101_subordinate_fails, C101_blank_fails, C101_ocsp_fails. get_status does not look at the signature of the response; signedbycert, check_nonce and get_signing_cert are not modelled."
  },
  {
   "property": "C102",
   "status": "partial",
   "theorems": [
    "Props.C102_found",
    "Props.C102_notfound",
    "Props.C102_timeout",
    "Props.C102_once",
    "Props.C102_cached",
    "Props.C102_clear",
    "Props.C102_ready",
    "Props.C102_children_partial",
    "Props.C102_ready_known",
    "Props.C102_count_fails",
    "Props.C102_children_fails"
   ],
   "note": "Full for what is answered (C102_found, C102_notfound, C102_timeout, C102_once, C102_cached, C102_clear, C102_ready, C102_ready_known); C102_children_partial: each process is waited for exactly once if every fork succeeds. Partial because of C102_count_fails (a cached answer without a list counts 1 whatever the number of addresses) and C102_children_fails (after a failed fork another name's process is waited for, and killed later). Assumes that the pipe of a process that ended or never started is readable; a line that is only half written is not modelled."
  },
  {
   "property": "C103",
   "status": "partial",
   "theorems": [
    "Props.C103_life",
    "Props.C103_first",
    "Props.C103_help",
    "Props.C103_uses",
    "Props.C103_wire_partial",
    "Props.C103_reply",
    "Props.C103_wire_fails",
    "Props.C103_auth_fails",
    "Props.C103_auth_partial"
   ],
   "note": "C103_life: for every sequence of operations, every instance and every command, the log of what was called is one in which the data are made at most once, each use gets them, they are cleaned up once before the instance goes, and nothing comes after that. C103_first: the first command added under a name is the one; other add calls and unknown names are refused without effect. C103_help: help lists exactly the added names, in order. C103_uses: run is one use of the command in this instance, foreach one in each. C103_wire_partial: messages without newlines, cut into lines and decoded, are what was sent; missing: newlines (C103_wire_fails). C103_reply: results, then exactly one OK or ERROR; OK exactly if a known command ran without error; what is run is what the line says. C103_auth_partial: a connection that has to authenticate itself runs nothing and becomes ready exactly if the callback accepts the first two words for the salt that was sent; missing: no listener makes such a connection. C103_auth_fails: a TCP connection runs commands whatever the authentication callback says. Callbacks that call the debugger again are not modelled."
  },
  {
   "property": "C104",
   "status": "partial",
   "theorems": [
    "Props.C104_data",
    "Props.C104_state",
    "Props.C104_connecting",
    "Props.C104_target",
    "Props.C104_target_address",
    "Props.C104_address",
    "Props.C104_close_partial",
    "Props.C104_taken",
    "Props.C104_flush",
    "Props.C104_close_fails",
    "Props.C104_name_fails",
    "Props.C104_clear_fails"
   ],
   "note": "C104_data: for every sequence of writes, reads, closes and turns, what was written to sockets is a prefix of what write took, the rest waits as long as the connection is ok, and nothing is written to a socket before its connection was made. C104_taken: write takes everything while it is ok, nothing after. C104_flush: once connected, a turn in which the system takes n bytes sends exactly these. C104_state: the error is the first failure; connected without error exactly if connect said so; if ok and resolved there is an open socket. C104_connecting: each outcome of a turn while it is being connected. C104_target, C104_target_address, C104_address: where it connects to. C104_close_partial: every socket is closed as often as opened, and closed means not ok, if close was not called before the address was known. Partial because of C104_close_fails, C104_name_fails (3com.com is 3.0.0.0) and C104_clear_fails. Callbacks, delays, what is read, and what the destructor still writes are not modelled."
  },
  {
   "property": "C105",
   "status": "partial",
   "theorems": [
    "Props.C105_unix",
    "Props.C105_unix_taken",
    "Props.C105_unix_turn",
    "Props.C105_unix_wakes",
    "Props.C105_unix_close_fails",
    "Props.C105_unix_delay_fails",
    "Props.C105_unix_bytes",
    "Props.C105_udp_partial",
    "Props.C105_udp_bytes",
    "Props.C105_udp_errors",
    "Props.C105_udp_merge_fails"
   ],
   "note": "C105_unix: for all histories without delay_output, the datagrams sent and those that wait are those that write took, in order, each by itself, and bufsize is the size of those that wait. C105_unix_taken: which writes are taken. C105_unix_turn: what a turn sends, and the alarm between 20 ms and 2 s if some still wait; C105_unix_wakes: select asks for writing or wakes up at the alarm. C105_udp_partial: if the system takes everything, each write is exactly one datagram to the peer set or heard of last, and src is that peer. C105_udp_bytes: whatever the system answers, the bytes sent are in order, none twice, none missing while it is open, if no peer is 0.0.0.0. C105_udp_errors: only EACCES closes it. Partial because of C105_unix_close_fails, C105_unix_delay_fails and C105_udp_merge_fails."
  },
  {
   "property": "C106",
   "status": "partial",
   "theorems": [
    "Props.C106_none_left",
    "Props.C106_rules_partial",
    "Props.C106_add",
    "Props.C106_del",
    "Props.C106_disabled",
    "Props.C106_coop_fails",
    "Props.C106_forward_fails",
    "Props.C106_enable_fails",
    "Props.C106_lines",
    "Props.C106_forward_lines"
   ],
   "note": "C106_none_left (full): in every history without a change of the switch, which is on, no rule is there more often than before plus what the lists of the objects have, and after clearing all objects not more often than before. C106_rules_partial: without deleting, and if no object ever has a forward twice, the kernel has exactly (as a multiset) the rules from before and those of the lists. C106_add, C106_del: what one call does. C106_disabled: with the switch off nothing changes. Missing and false: C106_coop_fails (deleting then clearing takes another's rule), C106_forward_fails (a forward added twice is deleted three times), C106_enable_fails. That the same words give the same rule is the contract of iptables in the spec."
  },
  {
   "property": "C107",
   "status": "partial",
   "theorems": [
    "Props.C107_set_partial",
    "Props.C107_untouched_partial",
    "Props.C107_nothing",
    "Props.C107_again_partial",
    "Props.C107_find",
    "Props.C107_proc",
    "Props.C107_ip_partial",
    "Props.C107_src_fails",
    "Props.C107_find_fails",
    "Props.C107_newsrc_fails",
    "Props.C107_table_fails",
    "Props.C107_main_fails",
    "Props.C107_metric_fails"
   ],
   "note": "C107_set_partial: if the list that was read is that of the kernel, whose rows are distinct, no route has metric 255, none of the wanted ones has table main, and no route of the kernel's table default has a mask beginning with a byte other than 0, then after the commands the routes seen are the wanted ones and those with metric 99 that were there. C107_untouched_partial: under the same conditions on the kernel, a row that is wanted or manual is there after every prefix of the commands. C107_again_partial and C107_nothing: then nothing is run. C107_proc (full): a line of /proc/net/route. C107_ip_partial: a line of the ip command, if no line before had a source and every key word has a value. C107_find: the first route with the address. Missing and false: C107_src_fails, C107_newsrc_fails, C107_find_fails, C107_table_fails, C107_main_fails, C107_metric_fails. What the kernel and the ip command do is the contract in the spec; equality of routes leaves out the source, as the code does."
  },
  {
   "property": "C108",
   "status": "partial",
   "theorems": [
    "Props.C108_defined_partial",
    "Props.C108_commands",
    "Props.C108_order",
    "Props.C108_url",
    "Props.C108_one_line",
    "Props.C108_pasv",
    "Props.C108_fetch_partial",
    "Props.C108_list",
    "Props.C108_store_partial",
    "Props.C108_truncated_fails",
    "Props.C108_missing_fails",
    "Props.C108_put_fails",
    "Props.C108_short_fails",
    "Props.C108_multiline_fails",
    "Props.C108_hangup_fails",
    "Props.C108_pasv_fails",
    "Props.C108_pasv_range_fails",
    "Props.C108_mkdir_fails"
   ],
   "note": "Proved: for every server, all commands are allowed ones (C108_commands), requests end in order and data belongs to the first open one (C108_order), commands built from URLs are single lines (C108_one_line), PASV answers (C108_pasv), definedness for lines of at least three characters (C108_defined_partial); complete conversations for a fetch, a listing and a store after a login with password (C108_fetch_partial, C108_list, C108_store_partial). False of the code, with witnesses: errors of a transfer are reported (C108_truncated_fails, C108_missing_fails), sources that are not ready (C108_put_fails), multi-line answers (C108_multiline_fails), and others named _fails. Withdrawing requests and the pool are not modelled here."
  },
  {
   "property": "C109",
   "status": "partial",
   "theorems": [
    "Props.C109_safe",
    "Props.C109_one_connection",
    "Props.C109_ends",
    "Props.C109_protocols",
    "Props.C109_unknown",
    "Props.C109_retried",
    "Props.C109_served",
    "Props.C109_defined_partial",
    "Props.C109_password_fails",
    "Props.C109_https_fails",
    "Props.C109_protocol_fails",
    "Props.C109_address_fails"
   ],
   "note": "C109_safe: for all runs, a connection has only requests that are in the pool, that point to it, each once and in no other connection, and while it is open none of them has ended; a request that points to a connection points to one that exists and, if it has not ended, has it. C109_one_connection: targets are distinct. C109_ends: ends are told at most once, a request that has not been told its end is still in the pool; when idle all have been told. C109_retried: after post_select every connection is open, and each request left has not ended and either waits or is with an open connection. C109_served: execute gives a waiting request whose address is known to an open connection to it, when no connection fails meanwhile. C109_defined_partial: if all protocols are http* or ftp. False in general: C109_password_fails, C109_https_fails, C109_protocol_fails, C109_address_fails. Streams are abstract: they only look at requests they have. C109_unknown: a request for an unknown host ends. C109_protocols: which protocol is spoken."
  },
  {
   "property": "C110",
   "status": "partial",
   "theorems": [
    "Props.C110_view_partial",
    "Props.C110_told",
    "Props.C110_setv_fails",
    "Props.C110_recursive_fails",
    "Props.C110_auto"
   ],
   "note": "C110_view_partial: for any generator that behaves as a configuration, the one made of a handle behaves as the part below the handle, for get, exists, haschildren, iterator and set, and every call but setv changes nothing outside except that places above come into being with empty values; the key of the handle has no slash at its end. C110_told: notifications that tell of a change of the whole, filtered as gencallback does, tell of the change of the part, and exactly those at or below the handle are passed on. C110_auto: which moniker and which rest auto: takes. False of the code: C110_setv_fails, C110_recursive_fails."
  },
  {
   "property": "C111",
   "status": "partial",
   "theorems": [
    "Props.C111_pipe_partial",
    "Props.C111_end",
    "Props.C111_closed_fails",
    "Props.C111_swapped_fails",
    "Props.C111_shared_fails",
    "Props.C111_nofork_fails",
    "Props.C111_redirect",
    "Props.C111_overwritten_fails",
    "Props.C111_once",
    "Props.C111_status_fails",
    "Props.C111_env_partial",
    "Props.C111_twice_fails"
   ],
   "note": "C111_pipe_partial gives the whole descriptor table of child and parent and the O_NONBLOCK flags after WvPipe::setup, for any parent in which new descriptors are 3 or more, and descriptors given that are 3 or more or in their place; C111_end that each end of the pipe is where it should be only; C111_redirect WvSystem's files for any free descriptors; C111_once; C111_env_partial the environment if each LD_ path is set at most once. False in general: C111_closed_fails, C111_swapped_fails, C111_shared_fails, C111_nofork_fails (closed descriptor number kept, wait pipe leaked), C111_status_fails (go() returns 0 if fork fails), C111_overwritten_fails (no O_TRUNC), C111_twice_fails (use after free in putenv)."
  },
  {
   "property": "C112",
   "status": "partial",
   "theorems": [
    "Props.C112_make",
    "Props.C112_outside",
    "Props.C112_write",
    "Props.C112_copy",
    "Props.C112_assign_partial",
    "Props.C112_assign_fails",
    "Props.C112_self_fails",
    "Props.C112_sum",
    "Props.C112_sum_sizes",
    "Props.C112_product",
    "Props.C112_product_sizes",
    "Props.C112_product_fails"
   ],
   "note": "C112_make, C112_write, C112_outside, C112_copy, C112_sum, C112_sum_sizes, C112_product and C112_product_sizes for all sizes and entries (if what is computed fits an int); C112_assign_partial only for assigning a matrix with no more entries. False otherwise: C112_assign_fails (heap overflow), C112_self_fails (use after free), C112_product_fails (a partial sum overflows although the entry fits). printable() is not modelled."
  },
  {
   "property": "C113",
   "status": "partial",
   "theorems": [
    "Props.C113_sorted",
    "Props.C113_all",
    "Props.C113_changes_partial",
    "Props.C113_self_fails",
    "Props.C113_delayed",
    "Props.C113_next",
    "Props.C113_later",
    "Props.C113_gone",
    "Props.C113_both_fails"
   ],
   "note": "C113_all: a list of callbacks that change nothing. C113_changes_partial: whatever they add or remove, as long as none removes itself, for which the code has undefined behaviour (C113_self_fails). C113_delayed, C113_next, C113_later: a delayed callback runs for its last call, in the next round and not before; earlier calls of that round are lost (C113_both_fails). C113_gone: a destroyed one leaves the list of the main loop. C113_sorted: the order that C113_all and C113_changes_partial assume holds after any calls."
  },
  {
   "property": "C114",
   "status": "proved",
   "theorems": [
    "Props.C114_words_exist",
    "Props.C114_tokens",
    "Props.C114_words_unique",
    "Props.C114_remaining",
    "Props.C114_lookup",
    "Props.C114_machine",
    "Props.C114_rest_fails"
   ],
   "note": "C114_words_exist, C114_words_unique: a line has just one list of words. C114_tokens: tokens are the words. C114_remaining: token_remaining after k tokens. C114_lookup: tokanal. C114_machine: the state machine gets each line with words. Lines are C strings (no NUL); that token_remaining uses another notion of white space than the tokens is shown by C114_rest_fails."
  },
  {
   "property": "C115",
   "status": "proved",
   "theorems": [
    "Props.C115_sent",
    "Props.C115_force",
    "Props.C115_debug_fails"
   ],
   "note": "C115_sent: what has been sent after any messages, and after destroying the receiver, is given by the entries of the messages up to the level of their sources, joined when source and level are the same. C115_force: the same with force_new_line. C115_debug_fails: Debug2 and above are dropped even below first_debug. Levels are below NUM_LOGLEVELS; the message of syslog ends with a newline, as in the code."
  },
  {
   "property": "C116",
   "status": "partial",
   "theorems": [
    "Props.C116_values",
    "Props.C116_shared",
    "Props.C116_clean_partial",
    "Props.C116_caches",
    "Props.C116_clean_fails"
   ],
   "note": "The values of all strings (C116_values), sharing (C116_shared), the table of all caches (C116_caches) and what cleaning keeps (C116_clean_partial), for all histories. Cleaning need not remove unused strings (C116_clean_fails)."
  },
  {
   "property": "C117",
   "status": "partial",
   "theorems": [
    "Props.C117_mask_partial",
    "Props.C117_first_partial",
    "Props.C117_string_partial",
    "Props.C117_char_partial",
    "Props.C117_mask_fails",
    "Props.C117_first_fails"
   ],
   "note": "For ASCII characters and all sequences of operations: what is in the mask and what first() gives. For other characters setting is undefined (C117_mask_fails, for all of them); first() may not be in the mask (C117_first_fails)."
  },
  {
   "property": "C118",
   "status": "partial",
   "theorems": [
    "Props.C118_open_partial",
    "Props.C118_destroy_partial",
    "Props.C118_reopen_partial",
    "Props.C118_ended_partial",
    "Props.C118_stays",
    "Props.C118_modes_partial",
    "Props.C118_open_fails",
    "Props.C118_reopen_fails",
    "Props.C118_output_fails",
    "Props.C118_input_fails",
    "Props.C118_nowrite_fails",
    "Props.C118_ended_fails",
    "Props.C118_modes_fails",
    "Props.C118_callback_fails"
   ],
   "note": "For all histories, answers and call depths, as long as no close callback opens a file: C118_open_partial, C118_destroy_partial; C118_reopen_partial if nothing waits to be written; C118_ended_partial if the writing side was looked at or there is a descriptor for it; C118_modes_partial. False otherwise: C118_open_fails, C118_reopen_fails, C118_output_fails, C118_input_fails, C118_nowrite_fails, C118_ended_fails, C118_modes_fails, C118_callback_fails. Delayed flushing, flush_then_close and what select does while a flush waits are not in this model."
  },
  {
   "property": "C119",
   "status": "proved",
   "theorems": [
    "Props.C119_digest",
    "Props.C119_hmac",
    "Props.C119_crc32",
    "Props.C119_adler32"
   ],
   "note": "Every sequence of calls, every library for which pieces do not matter; CRC-32 and Adler-32 against their definitions. MD5, SHA-1 and HMAC themselves are OpenSSL's and a parameter."
  },
  {
   "property": "C120",
   "status": "partial",
   "theorems": [
    "Props.C120_values_partial",
    "Props.C120_inherits",
    "Props.C120_told_partial",
    "Props.C120_during",
    "Props.C120_iter_partial",
    "Props.C120_remove_fails",
    "Props.C120_empty_fails",
    "Props.C120_silent_fails",
    "Props.C120_root_fails",
    "Props.C120_nested_fails",
    "Props.C120_children_fails"
   ],
   "note": "Histories of settings to values that are not empty and removals of whole sections, without inheritance (with it: C120_inherits). Removing a key, telling of removals, empty values, and children of the root fail in the code, with witnesses."
  },
  {
   "property": "C121",
   "status": "partial",
   "theorems": [
    "Props.C121_queue",
    "Props.C121_accept",
    "Props.C121_function",
    "Props.C121_sockets",
    "Props.C121_reachable_partial",
    "Props.C121_taken",
    "Props.C121_create",
    "Props.C121_wrap_partial",
    "Props.C121_twice_fails",
    "Props.C121_busy_fails",
    "Props.C121_file_fails",
    "Props.C121_wrap_fails"
   ],
   "note": "Proved for all histories: connections are given away once and in order (C121_queue, C121_accept), sockets belong to live listeners (C121_sockets), creation (C121_create, C121_taken). Partial: reachability needs that nothing is closed twice and queues are not full (C121_twice_fails, C121_busy_fails), files at the path are removed (C121_file_fails), wrappers need at most one (C121_wrap_fails)."
  },
  {
   "property": "C122",
   "status": "partial",
   "theorems": [
    "Props.C122_order",
    "Props.C122_kept_partial",
    "Props.C122_open_partial",
    "Props.C122_read_partial",
    "Props.C122_lines",
    "Props.C122_lines_total",
    "Props.C122_itself",
    "Props.C122_close_fails",
    "Props.C122_delayed_fails",
    "Props.C122_queuemin_fails",
    "Props.C122_mixed_fails"
   ],
   "note": "Proved for all histories: what is received is a prefix of what was sent and the rest is in the stream while it is open (C122_order), lines (C122_lines). Without delayed output nothing is lost (C122_kept_partial); C122_open_partial and C122_read_partial also exclude queuemin and mixing read with getline. The excluded cases are false: C122_close_fails, C122_delayed_fails, C122_queuemin_fails, C122_mixed_fails."
  },
  {
   "property": "C123",
   "status": "partial",
   "theorems": [
    "Props.C123_spared",
    "Props.C123_stop",
    "Props.C123_idle",
    "Props.C123_add",
    "Props.C123_close",
    "Props.C123_next",
    "Props.C123_keeps_partial",
    "Props.C123_reuse_fails"
   ],
   "note": "Proved for all states and histories: stopping (C123_stop), that nothing is left when not running or ended (C123_idle), adding (C123_add), closing (C123_close), starting again and dying without streams (C123_next). C123_keeps_partial, that connections stay over restarts, needs that no stream of the daemon had their address; otherwise it is false (C123_reuse_fails)."
  },
  {
   "property": "C124",
   "status": "partial",
   "theorems": [
    "Props.C124_auth",
    "Props.C124_valid",
    "Props.C124_groups_partial",
    "Props.C124_stale_fails",
    "Props.C124_nobody_fails",
    "Props.C124_why_fails",
    "Props.C124_end_partial",
    "Props.C124_session_fails",
    "Props.C124_token_fails",
    "Props.C124_conv",
    "Props.C124_conn",
    "Props.C124_name_partial",
    "Props.C124_name_fails",
    "Props.C124_uid_fails",
    "Props.C124_salt",
    "Props.C124_differ",
    "Props.C124_passwd",
    "Props.C124_same_fails"
   ],
   "note": "authenticate in all states and for all libraries (C124_auth: succeeds iff all steps do, in order, nothing after a failure), who is validated after all histories (C124_valid), groups of a user whose groups were not asked for before (C124_groups_partial), the end of a session (C124_end_partial), the conversation, connections of a configuration daemon (C124_conn), names of users there are (C124_name_partial), salts and what is stored. False of the code, with witnesses or for all inputs: groups after another user, groups after a failure, the reason of a failure, sessions, passwords with a library that refuses them, names of users there are not, numbers of users, the same password twice."
  },
  {
   "property": "C125",
   "status": "partial",
   "theorems": [
    "Props.C125_open",
    "Props.C125_make",
    "Props.C125_leak_fails",
    "Props.C125_parent_fails",
    "Props.C125_names_fails",
    "Props.C125_exec",
    "Props.C125_exit",
    "Props.C125_runs",
    "Props.C125_status_partial",
    "Props.C125_finish_fails",
    "Props.C125_unstarted_fails",
    "Props.C125_kill",
    "Props.C125_sent"
   ],
   "note": "which pair is taken and what is left open (C125_open, C125_make), the child (C125_exec, C125_exit, C125_runs), answers in all histories except finish of a killed program (C125_status_partial), signals (C125_kill, C125_sent). False of the code: finish of killed programs, objects without a program, names of terminals, leaks when forking fails, the parent ends when closing fails."
  },
  {
   "property": "C126",
   "status": "partial",
   "theorems": [
    "Props.C126_match_partial",
    "Props.C126_set",
    "Props.C126_empty",
    "Props.C126_alias_fails",
    "Props.C126_nosub_fails",
    "Props.C126_message_fails",
    "Props.C126_stuck_fails",
    "Props.C126_loop_partial",
    "Props.C126_endless_fails"
   ],
   "note": "matching with registers that differ from each other and from the text, without NOSUB (C126_match_partial); which expression is used (C126_set, C126_empty); the documented loop if no match is empty (C126_loop_partial). False of the code: a register that is the text, NOSUB, messages of bad expressions, errors that stay, the loop with empty matches. What the library matches is a parameter."
  },
  {
   "property": "C127",
   "status": "partial",
   "theorems": [
    "Props.C127_public",
    "Props.C127_secret_partial",
    "Props.C127_agree_partial",
    "Props.C127_groups",
    "Props.C127_primes",
    "Props.C127_oakley_partial",
    "Props.C127_peer_fails",
    "Props.C127_short_fails",
    "Props.C127_truncated_fails",
    "Props.C127_length_fails",
    "Props.C127_logged_fails",
    "Props.C127_generator_fails",
    "Props.C127_unsupported_fails",
    "Props.C127_again_fails"
   ],
   "note": "Agreement, the form of public values and secrets, the bytes taken, and the published primes are proved for all numbers; agreement assumes public values that the library accepts (more than 1, less than the modulus minus 1) and a modulus of at most 10000 bits. Values outside that, short input, other groups and a second exchange are false of the code and shown so."
  },
  {
   "property": "C128",
   "status": "partial",
   "theorems": [
    "Props.C128_roundtrip_partial",
    "Props.C128_public_partial",
    "Props.C128_reads",
    "Props.C128_isok",
    "Props.C128_secret",
    "Props.C128_defined",
    "Props.C128_ofText",
    "Props.C128_replaces",
    "Props.C128_pem_fails",
    "Props.C128_copy_fails",
    "Props.C128_form_fails",
    "Props.C128_mark_fails",
    "Props.C128_empty_fails"
   ],
   "note": "Round trips are proved for private keys in every form and for public keys in the forms for them; public keys in a private form, the private PEM form of a key marked public, copying a blank object and a wrong mark are false of the code and shown so. The library is a parameter that reads what it wrote."
  },
  {
   "property": "C129",
   "status": "partial",
   "theorems": [
    "Props.C129_answers_partial",
    "Props.C129_recent",
    "Props.C129_before_fails",
    "Props.C129_iterate_fails",
    "Props.C129_after_fails"
   ],
   "note": "All answers, and all calls of the program's functions, are those of a small specification on paths, for all histories; functions that call the generator themselves are not modelled. That reading with update_before_get removes keys that no function computes, that iterators do not compute, and that values are lost without update_after_set are shown."
  },
  {
   "property": "C130",
   "status": "partial",
   "theorems": [
    "Props.C130_walk_partial",
    "Props.C130_autofill",
    "Props.C130_mixed_fails",
    "Props.C130_end_fails"
   ],
   "note": "Proved for all histories in which no key with a value is added after one without a value; the others give values of other keys, which is shown, as is the crash after the end. The unused lookup table and the cache of strings are left out."
  },
  {
   "property": "C131",
   "status": "partial",
   "theorems": [
    "Props.C131_text_partial",
    "Props.C131_colours_partial",
    "Props.C131_plain",
    "Props.C131_marked",
    "Props.C131_source_fails",
    "Props.C131_below_fails",
    "Props.C131_destroy_fails"
   ],
   "note": "Proved, for sources without ESC in their names: the characters a terminal shows are those the console without colours writes, and the terminal is restored (text); each message is in the colours of its level, after at most the end of the line before (colours); every character has the colours of a message (marked). Without a colour terminal the output is that of the plain console, for all sources (plain). False: ESC in the name of a source (source); the line below stays clear of colour (below); the end of the last line is coloured when the destructor writes it (destroy)."
  },
  {
   "property": "C132",
   "status": "partial",
   "theorems": [
    "Props.C132_enter_partial",
    "Props.C132_restores_partial",
    "Props.C132_nested",
    "Props.C132_renamed_fails",
    "Props.C132_replaced_fails",
    "Props.C132_unreadable_fails",
    "Props.C132_unnamed_fails"
   ],
   "note": "Proved: the process enters the directory without an error, or there is an error and it stays (enter_partial: the current path must fit the buffer); it comes back at the end of the scope whatever was done in between, if the directory is readable and short at first and has the same path and may be entered at the end (restores_partial); if nobody touches the directories and all are usable, any nesting is defined and comes back (nested). False: a directory renamed or replaced in between (renamed, replaced), a directory that may not be read (unreadable), a removed one or one with a long path (unnamed)."
  },
  {
   "property": "C133",
   "status": "partial",
   "theorems": [
    "Props.C133_speed_partial",
    "Props.C133_real",
    "Props.C133_close",
    "Props.C133_hangup_partial",
    "Props.C133_slow_fails",
    "Props.C133_wait_fails",
    "Props.C133_refused_fails",
    "Props.C133_base_fails"
   ],
   "note": "Proved: the speed set is the greatest not above the one asked for, 0 if there is none, if the driver takes it (speed_partial); with any driver the answer is the real speed of the port (real); hanging up keeps the speed if the modem is still usable and the driver takes speeds (hangup_partial); after closing, the settings are those from before apart from CLOCAL and the file is closed once, for every sequence of calls and every schedule of failures (close). False: a driver that refuses (refused), a speed below all there are drops the line (slow), the closing wait of the port is not restored (wait), a WvModemBase answers an uninitialised speed (base)."
  },
  {
   "property": "C134",
   "status": "partial",
   "theorems": [
    "Props.C134_lists_partial",
    "Props.C134_killall_partial",
    "Props.C134_blank_fails",
    "Props.C134_name_fails",
    "Props.C134_taken_fails"
   ],
   "note": "Proved for lists of processes whose commands have no control characters (ps does not show them) and do not start with a blank. Fails for a blank command (assertion), for program names with blanks, and the answer is true also if no signal was taken."
  },
  {
   "property": "C135",
   "status": "partial",
   "theorems": [
    "Props.C135_calls_partial",
    "Props.C135_set",
    "Props.C135_forgotten",
    "Props.C135_gone",
    "Props.C135_copy_fails",
    "Props.C135_assign_fails"
   ],
   "note": "Proved for all histories of making, copying and destroying objects at free places in memory. A copy does not watch (C135_copy_fails), and an object that is assigned to leaves its watch behind (C135_assign_fails). C135_calls_partial is for changes of keys without a slash at the end (C53)."
  },
  {
   "property": "C136",
   "status": "partial",
   "theorems": [
    "Props.C136_shows_partial",
    "Props.C136_null",
    "Props.C136_same_device_partial",
    "Props.C136_error_fails",
    "Props.C136_rewind_fails"
   ],
   "note": "Proved for the patterns of C64 (Ok and Sound), for iterations from the start. A pattern with an error shows every file (C136_error_fails); after rewinding inside of a directory matching files are left out (C136_rewind_fails, from C78)."
  },
  {
   "property": "C137",
   "status": "partial",
   "theorems": [
    "Props.C137_ring_partial",
    "Props.C137_dump_partial",
    "Props.C137_nul_fails",
    "Props.C137_keep_fails",
    "Props.C137_number_partial",
    "Props.C137_zero_fails",
    "Props.C137_large_fails",
    "Props.C137_address",
    "Props.C137_will"
   ],
   "note": "Proved: for every log size 2^k and every history of NUL-free puts and gets, what get answers is allowed by the queue of the last 2^k bytes (C137_ring_partial), and the dump of a crash after any puts is the last 2^k bytes (C137_dump_partial); ints of at most nine digits that are 0 or do not end with 0 are written in decimal (C137_number_partial); addresses are written with all digits and their value (C137_address); after any nested history of NUL-free wills the will read is that of the innermost object, up to 2047 bytes (C137_will). False of the code, with witnesses: a NUL in a text (C137_nul_fails), keeping a result over the next get (C137_keep_fails), numbers ending with 0 (C137_zero_fails), large numbers (C137_large_fails)."
  },
  {
   "property": "C138",
   "status": "partial",
   "theorems": [
    "Props.C138_keeps_partial",
    "Props.C138_close",
    "Props.C138_order_partial",
    "Props.C138_closed",
    "Props.C138_lost_fails",
    "Props.C138_stop_fails"
   ],
   "note": "Proved for all answers of the system and every bound on the depth of calls: without noread or nowrite no descriptor is closed or shut down (C138_keeps_partial); closing makes the stream not ok and does nothing to descriptors (C138_close); once not ok, however that came, it stays so and nothing is done with descriptors but callbacks are called (C138_closed); while it is ok and without nowrite, what was written to the descriptors followed by the buffer is what was given to write (C138_order_partial). False of the code, with witnesses: output in the buffer at close is lost, which a WvFdStream would write (C138_lost_fails); noread closes the standard input (C138_stop_fails)."
  },
  {
   "property": "C139",
   "status": "proved",
   "theorems": [
    "Props.C139_rules",
    "Props.C139_second",
    "Props.C139_busy",
    "Props.C139_starts",
    "Props.C139_timeout"
   ],
   "note": "Proved: the rules of C44 for every history (C139_rules); the queue is looked at in every second in which the list is run at the end (C139_second), within a tenth of a second if something is left and at once if something was started (C139_busy); the first waiting process is started within a second if those running have finished whenever the list is run (C139_starts); a timeout stream is ok exactly if all its calls were before its time (C139_timeout). The clock is assumed not to go backwards."
  },
  {
   "property": "C140",
   "status": "partial",
   "theorems": [
    "Props.C140_values_partial",
    "Props.C140_first_fails",
    "Props.C140_above_fails"
   ],
   "note": "C140_values_partial: if before the file is looked up only keys apart from it and the root are, and afterwards no key between the root and the file is, then each key below the file has the value in the file. C140_first_fails: a key below a file that is looked up first is empty until the file itself is looked up. C140_above_fails: looking up a key above the file afterwards hides its values. Setting values and notifications are not modelled."
  },
  {
   "property": "C141",
   "status": "partial",
   "theorems": [
    "Props.C141_bachelor",
    "Props.C141_null",
    "Props.C141_slow_partial",
    "Props.C141_count",
    "Props.C141_flush_fails"
   ],
   "note": "C141_bachelor, C141_null: in full. C141_slow_partial: the inner generator sees and answers all requests other than for flushing; C141_count: the count. C141_flush_fails: requests for flushing are not passed on. Recursive iterators and notifications are not modelled."
  },
  {
   "property": "C142",
   "status": "partial",
   "theorems": [
    "Props.C142_zone_partial",
    "Props.C142_clean",
    "Props.C142_ok",
    "Props.C142_large_fails",
    "Props.C142_stop_fails"
   ],
   "note": "C142_zone_partial: for sizes from 1 to 2^31-1, when the errors that the system reports are not 0. C142_ok: for these sizes. C142_clean: for all sizes. C142_large_fails: a zone of 2^32+1 bytes is ok and has one byte. C142_stop_fails: a zone of 2^31 bytes fails an assertion."
  },
  {
   "property": "C143",
   "status": "partial",
   "theorems": [
    "Props.C143_loop_partial",
    "Props.C143_pair_partial",
    "Props.C143_broken"
   ],
   "note": "C143_loop_partial, C143_pair_partial: for histories of writing, reading, flushing, waiting, closing and errors, if the system keeps what was sent and not received in order. C143_broken: for such histories. Unreading, stopping one direction, close callbacks and opening files are left out here (see C118)."
  },
  {
   "property": "C144",
   "status": "partial",
   "theorems": [
    "Props.C144_order",
    "Props.C144_woken_partial",
    "Props.C144_ready",
    "Props.C144_quiet",
    "Props.C144_stolen_fails"
   ],
   "note": "C144_order, C144_ready, C144_quiet: for all interleavings. C144_woken_partial: if the writer does nothing but write. C144_stolen_fails: if the writer waits with the same stream it may take the byte that was to wake the reader, which sleeps on although there are data."
  },
  {
   "property": "C145",
   "status": "partial",
   "theorems": [
    "Props.C145_inside",
    "Props.C145_made_partial",
    "Props.C145_clean",
    "Props.C145_broken_fails",
    "Props.C145_large_fails"
   ],
   "note": "Every access of a circle that is ok is inside its memory, for all sizes. put and get on a circle that got no memory access NULL or MAP_FAILED (C145_broken_fails); a size over four gigabytes is cut to int (C145_large_fails)."
  },
  {
   "property": "C146",
   "status": "partial",
   "theorems": [
    "Props.C146_packets_partial",
    "Props.C146_bytes",
    "Props.C146_errors",
    "Props.C146_merge_fails"
   ],
   "note": "C146_bytes, C146_errors: for all answers of the system. C146_packets_partial: while the system takes all packets. C146_merge_fails: a packet that is refused waits, is merged with the next one and may go to another address."
  }
 ]
}
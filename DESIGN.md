# Formal model of wvstreams: design

## 1. Layout

* `properties.jsonl`: the properties, one per line.
* `lean/Verif/Model/*.lean`: the model, one file for each class or source file of `/repo`. Every definition cites the file and lines it
  models, and says where it simplifies.
* `lean/Verif/Spec/*.lean`: small independent specifications (what base64 is, what a queue is, what a configuration is, ...). They
  do not mention the model.
* `lean/Verif/Lemmas/*.lean`: helper lemmas.
* `lean/Verif/Props/*.lean`: the property theorems, named `Cnn_...` in namespace `Props`, each with an `example` that shows that a concrete
  case meets its hypotheses. Where the code disagrees with a property the negation is a theorem too, `Cnn_..._fails`, with a
  concrete witness, and what does hold is `Cnn_..._partial`.
* `MANIFEST.json`: property -> theorems, with a note that says what is and what is not proved.
* `AXIOMS.md`: the axioms each theorem of the manifest depends on.
* `seeded/LOG.jsonl`: deliberately wrong edits of the model and the theorems that caught them.

## 2. Trusted base

* Lean 4.33.0's kernel. The axioms used are `propext`, `Classical.choice` and `Quot.sound` only, for each theorem as listed in
  `AXIOMS.md`. There are no added axioms, no `sorry`, no `native_decide`, no `bv_decide`. `decide +kernel` is evaluation by the
  kernel; it is used for concrete witnesses and examples, and for finite tables (all 256 bytes) that are then lifted to all inputs.
* The reading of the C++. The model is written by hand from the text of `/repo`; the code is never run. A misreading would not be noticed
  by the kernel. What limits this: every definition cites its lines, and functions are modelled one by one rather than as a
  summary of what they are meant to do.
* The specifications in `Spec/` and the statements in `Props/`, as far as they are to say what the English in `properties.jsonl` says.
* Conventions of the translation:
  - a byte is `UInt8`; a C string is a list of bytes that are not NUL, a WvString that may be null is an `Option` of one;
  - a `WvBuf &` that a client only uses as a queue is a list of bytes (C10 to C12 justify this reading);
  - where an encoder writes to a buffer, the buffer is unbounded (`WvDynBuf`), unless the model says otherwise; memory allocation
    never fails, and the contents of new memory are arbitrary where that can matter;
  - undefined behaviour, failed assertions and loops that do not end are explicit outcomes (`none`, or fuel that runs out) where they
    can happen, and never assumed away silently;
  - integers are unbounded (`Nat`, `Int`) but where the code relies on the width (hashes, addresses, bit accumulators, version numbers,
    times, sizes of containers), where `BitVec`, `UInt` or explicit `% 2^k` is used;
  - a class with virtual functions is a structure of functions, and theorems quantify over it: a device behind a stream is an arbitrary
    sequence of answers, an inner generator an arbitrary implementation, a callback an arbitrary program of calls with a bound on
    nesting that is itself quantified over;
  - the order in which a hash table is iterated is an arbitrary permutation at each use;
  - concurrency (C14, C43) is interleaving of atomic steps under sequential consistency; a step is one memory access (C14) or one system
    call (C43). A crash (C42) may come between any two system calls;
  - character classes (`isspace`, `isprint`, `isalnum`, `tolower`) are those of the "C" locale.

## 3. Per property

What is modelled, how it is proved, and, where the code does something else, what (each with a theorem `Cnn_..._fails` unless
"not modelled" is said).

### Encoders

| id | modelled | proof | disagreements |
|----|----------|-------|---------------|
| C01 | `wvbase64.cc` state machines inside `wvencoder.cc` `encode`/`finish` | state invariant relating consumed bits to output; induction over 3-byte groups | |
| C02 | the same encoder | equality with a bit-list specification of RFC 4648 | |
| C03 | the same decoder | composition of runs over chunks | the status `encode` returns after a `=` depends on how the text is cut |
| C04 | `wvhex.cc` | as C01 | |
| C05 | `wvbackslash.cc` with unbounded output | run of the decoder over each escape; induction | sets of characters that have letters meaning something after a backslash are not read back. Not modelled: with bounded output buffers two `unget` calls are on the wrong buffer or by a wrong count |
| C06 | `wvencoder.cc` for arbitrary `_encode`/`_finish`/`_reset` | induction over histories | XOR and counter mode do not support `reset` |
| C07 | `wvxor.cc` | invariant on the key offset | an empty key divides by zero (precondition) |
| C08 | `wvcountermode.cc` for an arbitrary block function | simulation of two encoders in lock step; the counter is +1 mod 256^n little endian | counter size 0 does not end (precondition) |
| C09 | `WvEncoderChain` | induction over the chain | |

### Buffers, lists, tables

| id | modelled | proof | disagreements |
|----|----------|-------|---------------|
| C10-C12 | `wvbufferstore.cc`: in-place, circular, linked and dynamic stores, `merge`, `unget`, `peek`, `poke` | refinement of any family of buffers to queues with history | peek of a dynamic buffer over pieces at a nonzero offset; negative offsets on dynamic and on empty circular ones; poke from a negative offset past the end; circular buffers of size 0; merge after a peek behind |
| C13 | `wvmagiccircle.cc` | refinement to a queue | |
| C14 | the same, steps of single bytes | invariant over all interleavings | |
| C17 | `wvscatterhash.cc` | open addressing invariant; primes of the table by kernel evaluation | tables of 262139 and more slots may probe 32768 slots only and loop for ever |
| C18 | `wvhashtable.cc` | refinement to a multiset of chains | `get/set_autofree(T*)` pass a hash as a key (left out) |
| C51 | `wvlinklist.{h,cc}` on an explicit heap with an arbitrary allocator | refinement to lists | `find_next` stays on a matching current element |
| C41 | `wvattrs.cc` on a byte-level memory | refinement of the block to an association list | `get` of a null name dereferences NULL |

### Strings, numbers, times, addresses

| id | modelled | proof | disagreements |
|----|----------|-------|---------------|
| C15, C16 | `wvtclstring.cc` | scanner invariants, round trip | quoted words are never returned; `unescape` of a lone quote reads before the string; the last word of a list is lost if escaped with backslashes and ending in a newline |
| C32 | `wvstring.cc` numbers | strong induction on digits | the smallest short prints as `-`, the smallest int and long are undefined; `""` and `-` are accepted as numbers |
| C33 | `url_encode`, `url_decode` | induction | sets without the percent sign |
| C34 | `cstr_escape`, `cstr_unescape`, with the bound of the destination | run of the decoder over each escape; induction | |
| C35 | `split`, `splitstrict`, `join` | induction | `split` adds empty strings at the ends |
| C36 | `wvtimeutils.cc` | integer arithmetic | `wvtime normalize` loses a second for negative multiples of 10^6; `msecdiff` is not the truncated difference |
| C37 | `verstring.cc` | digit lemmas | |
| C38, C39 | `wvaddr.cc` | bit vectors, extensionality | equality over classes is not transitive and does not respect the hash; `bits`, `normalize` are wrong for masks starting 01; more than 32 bits are undefined |
| C40 | `wvserialize.h` | induction | null strings come back empty; 4 GB strings; unterminated strings and cut-off buffers |
| C45 | `wvwordwrap.cc` | invariant on indexes | width 0 overflows the buffer |
| C47 | `wvhash.cc` | induction | |

### UniConf

| id | modelled | proof | disagreements |
|----|----------|-------|---------------|
| C19-C21 | `uniconfkey.cc` on lists of segments (the copy-on-write store below it is not modelled) | order lemmas, induction on segments | the empty key is no right unit; `numsegments` is not additive and `append` leaves an empty segment with trailing slashes; a wildcard after a name stands for itself |
| C22, C23 | `unitempgen.cc`, `unihashtree.cc`, `uniconftree.h` | refinement of a tree to a map; replay of notifications | |
| C24 | `uniconfgen.cc` notification queue, with re-entrant callbacks | history induction | |
| C25 | `unireadonlygen.cc`, `unisubtreegen.h`, `unisecuregen.cc`, `unipermgen.cc`, over an arbitrary inner generator | refinement | `setv` goes through all three unchecked; subtree keys with a trailing slash |
| C26 | `unilistgen.cc` | overlay | |
| C27 | `unimountgen.cc` | routing, induction over mounts | the newest mount is taken, not the longest; mount points with a trailing slash; unmounting something not mounted; refresh stops at the first failure; `exists` against `get`; values of iterators over nothing; a change of the root of a mounted generator is notified as `m/` |
| C28 | `unitransactiongen.cc` without its notifications | partial trees denote functions on configurations | keys with a slash at their end: read, set, commit |
| C49 | `uniinigen.cc` save and refresh | scanner invariants, round trip | backslashes, braces, quotes, spaces at the ends, empty values; a lone quote is undefined; an unbalanced brace injects keys |
| C53 | `uniconfroot.cc` watches (callbacks that add or remove watches are left out) | refinement of the tree of watches to a list; joined with C23 | called twice for `m/`; called for removals above; several calls for one removal |
| C50 | `uniclientconn.cc` framing and commands | as C15/C16, over arbitrary arrival of bytes | last arguments ending in a newline; messages cut off by the end of the connection; the reply to unknown commands |
| C54 | `uniconfgen.cc` recursive iterator | induction over the depth, against an inductive walk | |
| C55 | `uniconf.cc` XIter, as the list of what is visited | induction over the pattern, on top of C54 | `.../x` does not find `x` itself just below; `.../...` visits keys more than once |
| C56 | Model/Remote: the client generator, the daemon's connection, both directions of the network as byte queues that deliver any number of bytes at a time, a scheduler that interleaves everything, other users of the daemon's configuration, notifications at any time. The daemon's configuration is any generator that behaves as a configuration (Lemmas/Gen). | Spec/Remote says what an order of events explains. An invariant over all schedules: the messages not yet read on each side (Lemmas/Line, Lemmas/Remote) and either nothing is asked, or the question is the last message under way, or the rest of its replies is. `do_remove` is proved to remove the subtree by induction over the children. Progress by a lexicographic measure. | `setv` is lost: the daemon announces protocol version 19 but does not know SETV (C56_setv_fails). A value with unmatched braces and a newline at its end makes the daemon write a failure that is taken for the reply to the next question (C56_set_fails), and cannot be read (C56_get_fails). Removing `a ` removes `a` (C56_remove_space_fails), removing `.` leaves it (C56_remove_dot_fails). An iterator over `a/` is null (C56_iterator_fails). |
| C57 | Model/Caches: UniCacheGen over any generator that behaves as a configuration and whose notifications, applied in order to a configuration that agrees with it, give what it holds then (Lemmas/Notify; proved of UniTempGen). Notifications are delivered before the call that causes them returns. | Spec/Cache says what the inner generator holds after a history. By C54 the refresh visits every key below the root; replaying notifications keeps two configurations equal that agree except at keys with empty values, so an invariant over the history. `_partial`: at every key but the root the cache is right or has nothing where the value is empty (C57_values_partial); everything is right if at the refresh the root has no non-empty value and every key with an empty value has one below it with another (C57_coherent_partial). | Keys with an empty value are not loaded (C57_empty_fails), nor is the value of the root (C57_root_fails). From the second time on `refresh` always says it failed (C57_refresh_fails). |
| C58 | Model/Caches: UniFastRegetGen, its tree of remembered values, over the same generators as C57; a record of the keys asked of the inner generator. | Invariant: what is remembered is what the inner generator holds, and the places remembered only grow. `get` by induction over the length of the key: the parent is remembered first, then the key. | - |
| C59 | Model/Replicate: UniReplicateGen over any number of generators that behave as configurations, tell their changes, and whose recursive iterator visits what they hold (`Walks`; proved of UniTempGen, C59_temp). Whether each is ok changes between calls, or while it is asked in `get`; one that is not ok tells nothing. Its own notifications and `setv` are left out; the recursive iterator is taken when the loop begins. | Spec/Replica: copies, what those that can be reached hold together, and what each event makes of them. Simulation: replication first gives the first copy all the others hold, while the callback copies each change to the rest, then its own keys; by induction over the keys visited. Then an invariant over histories: copies with `was_ok` set agree. `_partial`: at all keys but the root, and for orderly histories: a copy that is back is noticed before `isok` is asked or someone else changes a copy, and one that is changed while it cannot be reached had been noticed as lost (C59_tidy gives a condition on the events alone). | The root is never copied (C59_root_fails). `first_ok` sets `was_ok`, so `isok()`, or a change told by another copy, right after a copy is back hides it: it is never brought up to date and, if it is the first, old values are read (C59_isok_fails, C59_change_fails, C59_unseen_fails). A key removed while a copy was lost is there again after it is back (C59_removed_returns), which merging implies. |
| C60 | Model/DefGen: UniDefGen over any generator that behaves as a configuration, with the strings and the size of the buffer that `finddefault` writes to; `none` for a write outside of it and where `atoi` is undefined. | Spec/Default: which places stand for a path, which of them goes first, and which names the wildcards stand for. The search tries the places in the order of the specification: induction over the names. The buffer: induction over what is still to be written; for the root and keys of one letter only the rounding of `alloc` makes it large enough. The loops over the wildcards: induction over the key from its end. | A default `*` for the names below the root hides the root's own value (C60_root_hidden); a path with a slash at its end is answered by a default (C60_slash_answered); a value like `*1` that is set at a key is read as null (C60_reference_lost); `*` and a number that is not an int is undefined (C60_number_undefined). unidefgen.h says that matches closer to the end go first: it is wildcards closer to the end that do. Notifications of a default name only the default. |
| C61 | Model/Format: `pparse` and both loops of `do_format` on bytes, with `atoi`, the 20 arguments and the size that `alloc` gives; `none` for a write past the end, an argument past the twentieth, `int` overflow and the assertion. The two loops share one reading of the format (`items`). | Spec/Format: a format is a list of pieces with a way to write them; `out` is the text they stand for. The reading of a written piece gives its width, precision and number: lemmas on `atoi` and the three scanning loops for any digits. Then induction over the pieces for the size and for the text. | The sizing pass bounds a field by its precision, the rendering pass pads to its width: a precision below the width writes past the end of the heap buffer, the example in the documentation of do_format included (C61_overflow, C61_documented_example_fails). `%c` of an empty or null string ends the text instead of giving a blank. A precision after `$n` is ignored. |
| C62 | Model/Strings: the buffers with their addresses, sizes and link counts, the WvString constructors, `link`, `unlink`, `offset`, both assignments with their overlap test on addresses, `unique`, `setsize`, `edit`, `append`; `none` for a use of freed memory, a read or write outside a buffer, `int` overflow and the assertions. | Spec/Strings: a variable is nothing, null or a text, and each statement changes one. Invariant: a buffer's links are the number of variables that use it, buffers do not overlap, each has a NUL after every text in it; one lemma per operation, then induction over the program, for every allocator that gives free memory. | The overlap test of an assignment from a `char *` compares the distance from the text with the size of the whole buffer, header included: an unrelated text just behind the buffer is moved into it, past its end (C62_neighbour_fails). A string made by `offset` that is assigned a later part of itself is moved to the start of the buffer while it still points into the middle (C62_offset_tail_fails). The theorem assumes these two away. |
| C63 | Model/KeyStore: the counted stores and their arrays with size and used part, a key as a range of a store; the constructors, `collapse`, `unique`, `append`, `prepend`, `pop`, `range`, the copies and destructors of temporaries, `operator=`; `none` for an index outside of an array or the use of a deleted store. | Spec/Keys: a variable is nothing or a list of segments, and each statement changes one (pop two). Invariant: a store's references are the number of variables that use it (and two for the store of the empty key), no key reaches past the used part; one lemma per operation, then induction over the program. C63_same_as_values says that Model/Key has the same operations. | `append` and `prepend` make room counted from the key's own first segment but write counted from the store's: a part of a key that outlives it is written past the array's end (C63_append_fails, C63_prepend_fails). `k = k` uses the deleted store (C63_self_assign_fails), `k.append(k)` runs past the array, `k.prepend(k)` is wrong (C63_self_append_fails). A key with an empty segment inside overwrites what it is prepended to (C63_prepend_empty_segment_fails). The theorem assumes these away. |
| C64 | Model/Glob: both `glob_to_regex` (the state machine, the quit characters, the recursion for braces). Not modelled: the text of an error, and regcomp and regexec themselves. | Spec/Glob: patterns as trees, how they are written and what they match. Spec/Ere: a reader of POSIX extended expressions (the part that occurs) and their matching, in place of the C library; it is part of the trusted base. The translation of a pattern's text is computed by induction over the tree, and then read; conversely a successful translation has read a tree. | `[!a]` matches a slash (C64_slash_fails); `[^^a]` becomes `[^a]` and so matches all but `a` (C64_caret_fails); `[!]a]` gives an expression that does not compile (C64_bracket_fails). |
| C65 | Model/Cont: all of utils/wvcont.cc (`_call`, `operator()`, `yield`, `isok`, `current`, the constructors and the destructor, `Data::link`/`unlink`) and of utils/wvtask.cc `start`, `run`, `yield`, `recycle`, `do_task`, as a machine whose stacks are lists of frames; getcontext/setjmp and longjmp save and replace the stack. The user's code is any deterministic program (states of any type, one action at a time). Not modelled: the bytes of a stack and its overflow, the stackmaster's layout of stacks, the magic numbers, `operator=`, exceptions. | Spec/Coroutine: coroutines with an explicit list of callers, no tasks, depths or links. A simulation: each action of the specification is a number of steps of the machine (Lemmas/Cont, ContSim, ContStep); the way back to a caller, by way of the top level, is an induction over the callers (`descend`). Since the machine is deterministic, the converse follows. | none |
| C66 | Model/Http: urlget/wvhttpstream.cc `execute`, `doneurl`, `close`, `request_next`, `send_request`, `start_pipeline_test`, and `addurl`; `read` and `getline` of the connection. Not modelled: the text of the requests, uploads, time-outs, the pool and its retries, a program that closes its output early. | Spec/Http: what a server sends for an answer (RFC 2616) and what a program is to see of it. An invariant: what has arrived and what will arrive is the rest of the answers from a phase of the current one on (Lemmas/Http, HttpExec, HttpRun); one lemma for each phase. Completion by a measure: outstanding requests, then bytes. | Hang-ups: a page cut off by the server is marked complete without an error (`C66_truncated_fails`: "connection interrupted" comes after `if (!isok()) return`). A colon in the reason (`C66_colon_fails`). HTTP/1.0 and HEAD: `peek(0, 5)` of fewer bytes (`C66_peek_fails`). Bodies that end with the connection. |
| C67 | Model/BusServer: dbus/wvdbusserver.cc, all of the handling of names, messages and connections; messages are records. Not modelled: libdbus and the coding of messages, the handshake, texts of errors. | Spec/Bus: the owner of a name as a function of the history, and what is sent for each message. An invariant between the history and the tables (Lemmas/BusServer), by induction over the history. | Any client stops the bus by releasing a name it does not have (`C67_release_fails`; `C67_stops_exactly`: nothing else does). RequestName takes over unique names of others (`C67_hijack_fails`). The sender of broadcasts is not set (`C67_sender_fails`). Calls to a connection that broke before the bus noticed get no answer (`C67_lost_fails`). |
| C68 | Model/BusConn: dbus/wvdbusconn.cc `send`, `add_pending`, `cancel_pending`, `expire_pending`, `filter_func`, the loop of `post_select`. Functions of the program are frames on a stack; what they do are events, so they may do anything. Not modelled: reading and decoding, the handshake, filters that are added or deleted while a message is filtered. | Spec/BusCalls: events and effects. A counting invariant: calls of a request + places where it waits = 1 + places where its function runs (Lemmas/BusConn). | Time-outs use the request after it was deleted (`C68_timeout_fails`). A function that sends its message again is called twice and then freed memory is used (`C68_resend_fails`). `send_and_wait` inside of a function never returns (`C68_wait_fails`). Closing forgets all open requests (`C68_close_fails`). |
| C69 | Model/Url: ipstreams/wvurl.cc, the constructor and `operator WvString`. Left out: the look-up of the host's address and the error texts. A look behind the end of the text is undefined. | Spec/Url: the parts of a URL and its text. Reading a written URL gives its parts; printing and reading again gives the same parts (Lemmas/Url, Props/Url). | A '@' in the path is taken for the end of the user (`C69_at_fails`). `file:` URLs are never ok (`C69_file_fails`). "http:" is read behind its end (`C69_short_fails`). Unknown protocols and missing slashes are taken (`C69_protocol_fails`), and ports over 65535 (`C69_port_fails`). Printing loses a password without a user (`C69_password_fails`), the '@' after an empty user (`C69_noname_fails`), and a form feed at the end (`C69_feed_fails`). |
| C70 | Model/EncStream: streams/wvencoderstream.cc with the parts of wvstreamclone.cc and wvstream.cc that move its bytes. The chains are any machines, the stream below is any sequence of answers. Left out: callbacks, `max_outbuf_size`, `flush_then_close`, `setclone`, adding encoders while the stream is in use. | Spec/Coder: what it means that an encoder was given bytes and gave out others, and that it was asked to finish. Invariants for the reading and the writing half over all histories (Lemmas/EncStream, Props/EncStream). | With `queuemin`, `read` returns memory that nobody wrote at the end of the stream (`C70_queuemin_fails`). At the end `read` returns nothing and the stream is closed though there is more to read (`C70_eof_fails`). What the stream below does not take is lost (`C70_limit_fails`). `nowrite` loses the end of the chain's output (`C70_nowrite_fails`). When the chain fails, what it gave out before is lost and its end is written (`C70_order_fails`). |
| C71 | Model/FsGen: uniconf/unifilesystemgen.cc, `mkdirp` and `rm_rf` (streams/wvfileutils.cc), the part of `WvDirIter` they use, and a file system with files, directories and symbolic links: path resolution, stat, access, mkdir, open for writing, unlink, rmdir, readdir. Nobody else changes the file system, all accesses are permitted, writes are complete. | Spec/Folders: the tree and what setting a key does to it. Refinement over all histories (Lemmas/FsGen: paths, `mkdirp`; Lemmas/FsSet: `rm_rf`, `set`, `get`, iterator; Props/FsGen). | Setting a missing key to NULL creates the keys over it (`C71_null_fails`). Keys that differ in case only are different files (`C71_case_fails`). Removing a key that is a symbolic link to a directory removes what is in that directory (`C71_link_fails`), so that both theorems ask for no links on the way to the directory and below it. |
| C72 | Model/ConfFile: configfile/wvconf.cc, cfgsection.cc, cfgentry.cc: sections, entries, `get`, `fuzzy_get`, `set`, `delete_section`, callbacks, `load_file`, `save` step by step with the sticky bit, `flush`. Not modelled: `getraw`, `setraw`, `getint` and the like, the standard callbacks, `save` to another file, passwords. Callbacks do not use the configuration; writes to an open file do not fail (the code does not look). | Spec/ConfFile: values, what setting and deleting do, chains of Inherits, names that can be saved. Lemmas/ConfFile: refinement of `set` and deletion; Lemmas/ConfGet: chains and circles; Lemmas/ConfText: the text that is saved is loaded as what it was; Props/ConfFile: invariant over all histories. | White space around names is cut off when setting and not when getting (`C72_trim_fails`); empty values (`C72_empty_fails`) and entries that are twice in the file (`C72_twice_fails`) are not removed by setting NULL; `fuzzy_get` with several entries looks for the first of them only (`C72_fuzzy_fails`); names with = or ], values with white space at the ends are saved but not loaded as they were (`C72_names_fails`); if the directory is not there, `flush` says clean though nothing was saved (`C72_nodir_fails`); the file is empty and not marked for a moment (`C72_window_fails`); a mark left by a process that was stopped is kept by the next save (`C72_stuck_fails`). |
| C73 | Model/SslStream: crypto/wvsslstream.cc with the parts of wvstreamclone.cc and wvstream.cc that it uses: bounce buffers, the data that are kept before the handshake, the output buffer, handshake, `close`, `noread`, `nowrite`. The SSL library, the stream below and the callback are answers, which may be any. Not modelled: the errors of the constructor, timeouts of `flush`, `flush_then_close`, alarms, that the stream below has an error without being closed. | Lemmas/SslStream: invariants: before the handshake, connected (what was taken is what was sent and the rest of the output buffer; the bounce buffer is its beginning), and closed. Props/SslStream. | `delay_output` before the handshake: the order is not kept (`C73_delay_fails`); with `outbuf_limit`, bytes are sent that were not taken, in place of others (`C73_limit_fails`); `close` does not write what is in the output buffer, as it frees the connection first (`C73_close_fails`); `noread` and `nowrite` before the handshake lose what was written (`C73_early_fails`); without a callback, a handshake that failed with 0 is taken to be done (`C73_zero_fails`); `nowrite` alone does not stop `write` (`C73_nowrite_fails`). |
| C74 | Model/LogRcv: streams/wvlog.cc and include/wvlogrcv.h: the list of receivers, their number, the default console and the recursion of `uwrite`; `WvLogRcv::log` with prefix, lines and rules; `set_custom_levels`; the console. What receivers write when they hear something is a function, which may be any. The order of the table of rules is any permutation. Not modelled: errors and short writes of the descriptor of the console, of which it takes no notice; filters; levels above 9; receivers made or destroyed while a message is heard. | Lemmas/LogRcv: the loop is a fold over characters, and that gives the lines of the text; messages with the same heading are one; an invariant relates the static members to the receivers there are; the calls at each depth are the messages written there. Props/LogRcv. | Names with a space cannot be given, although the documentation does it (`C74_space_fails`); two rules for a source: the order of the table decides (`C74_overlap_fails`); a receiver made before a fork and destroyed in the child makes the process fail an assertion (`C74_fork_fails`). |
| C75 | Model/Sizes: `sizetoa`, `sizektoa`, `sizeitoa`, `sizekitoa` with their tables, rounding and loops, `secondstoa`, `metriculate`; arithmetic wraps at 64 bits. | Lemmas/Sizes: the loop over the prefixes, by induction, ends at the first unit that gives a number below 1000 (1024), and each round rounds the exact number; the loop over digits is the text with a space before every three digits. Props/Sizes: for blocks of a power of 1000 (1024) up to the sixth and less than 2^64 tenths of a block; every duration; every number but 0 and the smallest. | Partial: other block sizes are rounded twice and may be wrong, and so are sizes of 2^64 / 10 blocks and more, because only some overflows of size * 10 are seen (`C75_size_fails`); `metriculate` of 0 is empty (`C75_zero_fails`). |
| C76 | Model/TextUtil: the functions of utils/wvstrutils.cc that C32 to C35, C45 and C75 do not cover, and two of utils/wvstrutils-sock.cc, with their loops; reading or writing outside of a string and a loop that does not end are `none`. Not modelled: null strings where the code does not look for them, dates, `ptr2str`, functions that ask the system. | Lemmas/TextUtil: the search gives the first occurrence; inductions over the loops; rows of a dump by their number of bytes. Props/TextUtil. | `strreplace` of an empty text never ends; `substr` reads and `depunctuate` reads outside of an empty line, `substr` writes outside if `pos + len` wraps, `spacecat` reads before a text of separators only, `strcount` reads after the end if NUL is counted; `beforestr` and `afterstr` of an empty line are null; `getdirname("/")` is empty; `depunctuate` removes only one mark (theorems `C76_..._fails`). |
| C77 | Model/Timed: the alarm, WvTimeStream, WvDailyEvent and WvRateAdjust, with the clock as an argument of each operation. Not modelled: overflow of integers, summer time and other changes of the time zone, the pieces in which the output of WvRateAdjust is allotted. | Lemmas/Timed: the distance from the clock to the alarm under every sequence of looks; an invariant of the rounds that bounds the ticks; the first moment after another in an even division of the day; the sums in the bucket. Props/Timed. | An alarm that is set after the clock was set back rings early; a WvTimeStream loses a tick when it is ready for another reason, does not compensate ten missed ticks although it means to, and with periods of more than 21474836 ms never starts anew; a WvDailyEvent is uneven if the number does not divide the seconds of a day, waits without end instead of until the event, rings in every round once it has rung, comes back a million times too late if it became due while waiting, and with its default number rings in every round; WvRateAdjust puts out nothing for a while after the clock was set back (theorems `C77_..._fails`). |
| C78 | Model/DirWalk: the constructor, rewind, up and next, with the open directories as a stack of what is left to read. Not modelled: a tree that changes meanwhile, the rest of what stat says, names that lstat finds again in the meantime. | Lemmas/DirWalk: what is still to be shown is what is left of the open directories, from the innermost to the outermost, and each next takes one off its front (induction on the stack); two iterators that differ in the path from the start show the same otherwise. Props/DirWalk. | "/" can not be iterated over; with skip_mounts the device of the first file is taken for that of the directory; after rewind in a directory below, and after up, the path from the start is wrong (theorems `C78_..._fails`). |
| C79 | Model/Copy: copy, move and remove, over the recursive iterator of Model/RecIter, with one generator or two. Not modelled: several mounts in a root (see C24, C68); notifications (C23). | Lemmas/Copy: the loop visits the places below src in preorder, although each round changes the state, as long as what is below src stays; in preorder what leads to a place comes before it, so each round changes one place only (induction on the rounds). Props/Copy. | The value of dst itself is overwritten without force; if src does not exist dst is removed, also without force; move to a key that exists replaces it and does not leave the key as a subkey there (theorems `C79_..._fails`). Copying to a key below src is not treated: the header says not to. |
| C80 | Model/IntText: str2int with strtol as in the C standard, getmeint, setmeint. | Lemmas/IntText: strtol finds a number exactly if the text begins with one in the sense of Spec/IntText (induction on the digits, from both ends). Props/IntText. | A number that does not fit an int is another number, not the default (`C80_number_fails`); the smallest int can not be stored, see C32. |
| C81 | Model/ConfEmu: WvConfEmu and its sections on any generator; load_file with UniConf::copy (Model/Copy). | Spec/ConfEmu: the values of entries as a part of a tree (`view`), what each call should do to them, with the specification of inheritance of C72. Lemmas/ConfEmu: each call against it, by induction on the history; fuzzy_get by an invariant on the sections already seen, and ends as there are finitely many that inherit. Props/ConfEmu. | A name with a slash is not one name (`C81_values_fails`); maybeset overwrites in the section with the empty name (`C81_maybeset_fails`); a blank entry is not an error, against the comment (`C81_request_fails`); setint and a section's set leave the configuration clean (`C81_clean_fails`); a section that was looked up outlives its removal (`C81_section_fails`); get does not follow Inherits, as WvConf does (`C81_inherit_fails`). |
| C82 | Model/ConfEmu: notify, add_callback, del_callback, on the notifications of the generator of Model/TempGen (C23). | Spec/ConfNotify: what a request covers, as places; who asked and did not call it off. Props/ConfNotify: from C23_exact, with the text of a key and its first name as places; by induction on the history. | The value of a section itself is always told as empty (`C82_value_fails`); a second callback with the same cookie, section and entry is dropped (`C82_added_fails`); calling off is case sensitive (`C82_del_fails`); an entry written with a slash in front is never told of (`C82_entry_fails`). |
| C83 | Model/PermGen: setowner, setgroup, setperm, both chmod, over any inner generator; getperm of Model/IGen with the actual str2int of Model/IntText. | Spec/PermSet: what was given, as maps of places; one step for each call. Props/PermSet: the inner configuration says what was given, by induction on the history; then the reading as for C25. | Taking an owner or a group away (null) also takes away what was given to paths at and below one named `owner` or `group` there (`C83_clear_fails`); the specification says so. |
| C84 | Model/Uuid: both functions, `strtoul` with base 16 as the C standard has it; a byte that is never written is an outcome of its own. | Spec/Uuid: groups of digits with dashes. Props/Uuid: fixed-width digits; inversion of the reader for what is rejected. | A text whose last group is too short is accepted, with undefined bytes (`C84_cut_fails`), and so are blanks, signs and 0x in place of digits (`C84_digits_fails`). |
| C85 | Model/Xplc: the lists of nodes, and a ledger of addRef and release. | Spec/Xplc: three lists of handlers, a map, the first registration, an inductive relation for names. Props/Xplc: invariants over any calls; induction on the name. | Names with a colon that are registered as such can never be found (`C85_colon_fails`). |
| C86 | Model/Refs: an object and its weak reference, with use after destruction as an outcome of its own; pointers and a ledger. | Spec/Refs: the numbers of references held. Props/Refs: invariant over all allowed calls. | If the last weak reference goes before the object, release() writes to the weak reference after it was freed (`C86_weak_fails`); copying an xplc_ptr to the same type takes no reference (`C86_copy_fails`). |
| C87 | Model/Ftp: the parser, with reads behind the end and signed overflow as outcomes of their own; the calendar functions with C division. | Spec/Ftp: the calendar by months and years; the formats. Lemmas/FtpDate, Lemmas/FtpLine, Props/Ftp: `totai` is the calendar; every format is read as it was written; safety by following every place in the line. | Numbers of many digits overflow (`C87_overflow_fails`); days that do not exist are not refused (`C87_leap_fails`). |
| C88 | Model/Retry: the two tests around every call, the calls, the destructor; the inner generator is any implementation of the generator interface which may also change by itself. | Spec/Retry: what may be asked, the answers without a connection, counts over the record of what was done. Props/Retry: each case of a call outright; counts and times by an invariant over all histories. | The distance of two attempts may be shorter than documented (`C88_spacing_fails`), and if nothing can be made there is no waiting (`C88_null_fails`). |
| C89 | Model/BusArgs: the open containers as a stack, the iterator, the conversions on the bits of the arguments; libdbus is assumed to keep what it is given. | Spec/BusArgs: arguments, the number and the text they stand for, the calls that add them. Props/BusArgs: by induction on the nesting; counts over all sequences of calls. | Large unsigned numbers become negative (`C89_int_fails`), bytes are lost on big-endian machines (`C89_char_fails`), dots after exactly twenty (`C89_all_fails`), the smallest number has no text (`C89_text_fails`). |
| C90 | Model/Args: the list, the dictionary with the key each option was filed under, the array for argp with its index, the parser; argp itself as far as it calls the parser. | Spec/Args: declarations, uses, what each kind of option does, the numbers texts say. Props/Args: an invariant that list, dictionary and declarations agree, kept by declarations and removals; the call by induction over the uses. | Six ways in which tables stop agreeing are shown (`C90_remove_fails`, `C90_dangling_fails`, `C90_rebuild_fails`, `C90_late_fails`, `C90_again_fails`, `C90_description_fails`). |
| C91 | Model/LockDev: one system call per step; files as inodes with bytes; deaths. | Spec/LockDev: Exclusive, Last. Props/LockDev: an invariant with the owner of the lock over all schedules without deaths; another one over calls that do not overlap, with deaths at every point of a call. | Exclusion is false of the code in general: stale locks are removed without a check (`C91_stale_fails`), creating again is not checked (`C91_recreate_fails`), and a process that ends in the normal way may look stale (`C91_exit_fails`). A crash between create and write blocks the device (`C91_crash_fails`). |
| C92 | Model/Aliaser: the global list with link counts, the lists of pointers, the 256 interfaces of the kernel. | Spec/Aliaser: what each user has. Props/Aliaser: invariant by induction over the history: pointers are valid, a link count is the number of users that have the address, interfaces and aliases belong to each other. | The documented promise that an address does not go away even temporarily is false when edits of two objects overlap (`C92_temporary_fails`); add() returns true without permission (`C92_created_fails`). |
| C93 | Model/ErrorObj: number, text (null or not) and calls of the callback of each object; assertions. | Spec/ErrorObj: the first error since the last reset. Props/ErrorObj: refinement, by induction over the history. | A text told with number 0 becomes the text of the next error (`C93_leftover_fails`), assigning an object to itself loses its error (`C93_self_fails`), negative numbers without a text and empty texts fail assertions (`C93_negative_fails`, `C93_empty_fails`). |
| C94 | Model/Sorter: the array with its NULLs, the index, the static comparison function; qsort as any program that asks for comparisons; comparison functions that sort. | Spec/Sorter: sorted permutation. Props/Sorter: induction over the program of qsort, the nesting and the array. | qsort is assumed to sort (`Sorts`; insertion sort is shown to meet it). Calling next() again after the end reads beyond the array (`C94_after_fails`), so does using a sorter before rewind() (`C94_fresh_fails`); NULL elements end the loop (`C94_null_fails`). |
| C95 | Model/BusWire: the queues, the two loops of post_select, any amounts read; libdbus as a parameter with a contract (`BusLib`). | Spec/BusWire: the messages complete after n bytes. Props/BusWire: invariant over all events. | Partial: after a message that cannot be read, complete ones behind it are not delivered until more bytes arrive (`C95_corrupt_fails`), and an impossible length throws away all that was read (`C95_garbage_fails`). |
| C96 | Model/SubProc: a kernel with processes, groups, zombies and moves by themselves; pid, old_pids, running; the loops, with moves between system calls. | Spec/SubProc: processes and what they do. Props/SubProc: invariants: our processes are in known groups; known numbers belong to ours. | Partial: pid files are not modelled. Not true if started again while running (`C96_restart_fails`), after wait or stop without the children (`C96_leftover_fails`), for processes that leave their group (`C96_escape_fails`); if the kernel reuses numbers, signals can hit strangers (`C96_stranger_fails`). |
| C97 | Model/Daemon: `_run` as steps, each with the requests and signals that arrive during its callback; the pid file; several daemons in one world. | Spec/Daemon: which callback may follow which. Props/Daemon: invariant between the place in the program and the callbacks so far. | Partial: a daemon that finds another one running calls unload without load and removes the pid file of the other one, so that a third one starts (`C97_unload_fails`); two started at once both run (`C97_race_fails`); the second SIGHUP is ignored (`C97_hup_fails`). |
| C98 | Model/Gzip: both loops, with zlib's calls as a parameter, as an encoder of Model/Encoder. | Spec/Gzip: what zlib promises (a contract that a small codec satisfies: `toy_codec`). Props/Gzip: invariants of the loops over what zlib took and wrote. | Partial: zlib is not modelled; `ignore_decompression_errors` is off. With a limit, finish reports success without the end (`C98_limit_fails`); data that is cut off is not reported (`C98_truncated_fails`). |
| C99 | Model/LogFile: a directory with names and files with a time, `start_log`, `_make_prefix`, the removal of old files at any time. | Spec/LogFile: names, files, events with times. Props/LogFile: invariant: the open file is in the directory or its day is over. | Partial: writing does not fail; time zone constant. Files with a name that only begins like that of the log are removed too (`C99_unrelated_fails`); more of a line that was begun as many days before is lost (`C99_midline_fails`). |
| C100 | Model/Cert: certificates with dates, key and the key that signed them; `validate`, `signcert`, `signreq`, the decision about a peer. OpenSSL as far as used. | Spec/Cert: Signed, Issued, InTime. Props/Cert: `validate` iff these; what `signreq` returns validates for ten years. | Partial: dates that cannot be read count as valid (`C100_date_fails`); a manager with the key of the signer instead of its own is all right (`C100_match_fails`); two certificates of the same second have the same number (`C100_serial_fails`); `signreq` that fails returns "0" or a certificate without signature (`C100_request_fails`). |
| C101 | Model/Cert: lists, `addcert`, `signcrl`, `isrevoked` with the number as a text, `validate`, `get_status`. | Props/Cert: round trip of the number; induction over what was added; the life of a list. | Partial: a first extension that is critical is not seen (`C101_critical_fails`), nor a date that cannot be read (`C101_date_fails`); the list of a subordinate authority is in the wrong name (`C101_subordinate_fails`); crashes (`C101_blank_fails`, `C101_ocsp_fails`). The signature of a response is checked by another call. |
| C102 | Model/Resolver: the table of hosts, the numbered lookups, the pipe as a line of text, waitpid, findaddr, clearhost, post_select. | Spec/Resolver: what a lookup finds, the last lookup of a name. Props/Resolver: invariant over all histories; the line is read back by C38; each entry has its child. | Partial: cached answers without a list count 1 (`C102_count_fails`); a fork that fails waits for another name's child, which is killed later (`C102_children_fails`). The pipe of an ended process is assumed to be readable. |
| C103 | Model/Debugger: the commands as a sorted list, the instances with the data of each command, a log of calls; the server line by line. | Spec/Debugger: what may happen to the data of a command in an instance. Props/Debugger: invariant over all histories; the wire by C15/C16. | Partial: results with newlines are several lines (`C103_wire_fails`); TCP connections are never asked for a password (`C103_auth_fails`). Callbacks do not call the debugger again. |
| C104 | Model/Tcp: the object with a log of what was asked of the system; the answers are given to each call. | Spec/Tcp: what was written, what failed, when a connection is made, the text cut in name and port. Props/Tcp: invariant over all histories; C38 and C32 for printed addresses. | Partial: close before the name is known has no effect and leaks the socket (`C104_close_fails`); names that begin with a digit are taken for addresses (`C104_name_fails`); a name cleared during the lookup is waited for for ever (`C104_clear_fails`). |
| C105 | Model/Datagram: both sockets with the output buffer of WvStream above them; a datagram is taken as a whole or not. | Spec/Datagram: which datagrams are to arrive where. Props/Datagram: invariants over all histories. | Partial: close and flush forget waiting datagrams (`C105_unix_close_fails`), delay_output joins them (`C105_unix_delay_fails`), and a UDP datagram that the system refused is joined with the next and sent to the wrong peer (`C105_udp_merge_fails`). |
| C106 | Model/Firewall: the command lines, the six lists of each object, the rules of the kernel, `zap`. | Spec/Firewall: a rule is appended, or the first that is the same deleted. Props/Firewall: counts of each rule, by induction over all histories. | Partial: what is deleted stays in the list, so that clearing deletes it again, from another object (`C106_coop_fails`); a forward added twice is deleted three times (`C106_forward_fails`); what was added with the switch off is deleted with the switch on (`C106_enable_fails`). |
| C107 | Model/Routes: reading both texts, the commands that are run, and what they do to the tables of the kernel, with the second try by ioctl and the extra route to a gateway. | Spec/Routes: a kernel that adds and deletes routes of several tables. Props/Routes: the routes are a permutation of kept ones and ones still to delete. | Partial: a source address is taken over to later routes (`C107_src_fails`) and its change not noticed (`C107_newsrc_fails`); the route found need not be the most specific (`C107_find_fails`); tables called default and main, and metric 255 (`C107_table_fails`, `C107_main_fails`, `C107_metric_fails`). |
| C108 | Model/FtpClient: the stream with its queue, the conversation, the two kinds of transfer and the end; the server is the list of its lines and connections. | Spec/FtpClient: which command may follow which conversation. Props/FtpClient: invariants over all runs; the complete conversation for a fetch, a listing and a store. | Partial: undefined for lines shorter than three characters (`C108_short_fails`); a transfer that failed or a missing file looks like a complete one (`C108_truncated_fails`, `C108_missing_fails`); a source that is not ready is stored empty (`C108_put_fails`); answers of several lines (`C108_multiline_fails`); no end when the server hangs up early (`C108_hangup_fails`); PASV with other digits (`C108_pasv_fails`, `C108_pasv_range_fails`); the directories that are made (`C108_mkdir_fails`). |
| C109 | Model/UrlPool: the requests, the table of connections, `post_select` and `execute`; the streams and the name service are given by what they do. | Spec/UrlPool: targets and answers. Props/UrlPool: one invariant over all runs; C109_served by following the loop. | Partial: a password is not compared (`C109_password_fails`), https goes over a plain connection to the same port (`C109_https_fails`), URLs like sip: use a NULL pointer (`C109_protocol_fails`), a needless connection when an address changes (`C109_address_fails`). |
| C110 | Model/Unwrap: the generator over any generator at the root; the choice of auto:. | Spec/Conf, Spec/Path. Props/Unwrap: refinement to the part below a place, as C25; Tells (C57) for notifications; induction over the loop of auto:. | Partial: setv escapes from the handle (`C110_setv_fails`); recursive iterators show only the last name (`C110_recursive_fails`). |
| C111 | Model/Child: descriptor tables with shared open files; the steps of the child and the parent; the loop over the environment. | Spec/Child. Props/Child: the table after each step; induction over the list of changes. | Partial: a parent without standard input and output (`C111_closed_fails`), swapped descriptors (`C111_swapped_fails`), the flag of a shared file is changed for the parent (`C111_shared_fails`), fork fails (`C111_nofork_fails`, `C111_status_fails`), output files are not truncated (`C111_overwritten_fails`), LD_LIBRARY_PATH twice (`C111_twice_fails`). |
| C112 | Model/Matrix: memory as a list, loops as folds; accesses outside of it and overflow are undefined. | Spec/Matrix (the scalar product). Props/Matrix: induction over the loops. | Partial: assigning a larger matrix writes outside of the memory (`C112_assign_fails`), a matrix to itself reads freed memory (`C112_self_fails`); partial sums may overflow (`C112_product_fails`). |
| C113 | Model/Callback: the list as the std::map ordered by cookie; the stream of a delayed callback with its alarm, in the list of the main loop. | Spec/Callback (a function runs just for the last call). Props/Callback: induction over the rounds; an invariant over histories. | Partial: a callback that removes itself leaves the loop with an invalid iterator (`C113_self_fails`); of two calls in one round only the last is made (`C113_both_fails`). |
| C114 | Model/Tokens: the loops of `_match` and `tokenize` over the bytes of the buffer. | Spec/Tokens (the words of a text as an inductive relation). Props/Tokens: induction over the words. | Proved. `token_remaining` also removes form feeds and vertical tabs, which the tokens keep (`C114_rest_fails`). |
| C115 | Model/Syslog: the receiver with its buffer and the calls of syslog. | Spec/Syslog (priorities, the entries of a message). Props/Syslog: the loop as a step for each character, induction over text and messages. | Proved. Messages of level Debug2 and above never get through, not even with a higher `first_debug` (`C115_debug_fails`). |
| C116 | Model/StringCache: buffers with link counts, the shared table, the strings of the program. | Spec/StringCache (strings as values). Props/StringCache: refinement to strings as values, with an invariant (different texts in the table, strings got from the cache are in it), induction over the history. | Partial: cleaning may do nothing - after a cleaning, all strings may be destroyed and the next cleaning leaves all of them in the table (`C116_clean_fails`). |
| C117 | Model/StringMask: the array and the first character, with writing outside of the array undefined. | Spec/StringMask (the last operation that names a character). Props/StringMask: induction over operations. | Partial: ASCII only; setting any other character writes outside of the array (`C117_mask_fails`); `first` may be a character that is not in the mask (`C117_first_fails`). |
| C118 | Model/FdStream: the functions that call each other as one function with a bound on the depth, the system as any sequence of answers, a log of what is done to descriptors. | Spec/FdStream (which descriptors are open by the log; modes). Props/FdStream: an invariant over all calls and histories. | Partial: not with a close callback that opens another file (`C118_open_fails`: one descriptor is leaked, the new one closed); a file may be not ok after opening because the old one could not be written (`C118_reopen_fails`); data of the old file go to the new one and come from it (`C118_output_fails`, `C118_input_fails`); a second file is not shut down (`C118_nowrite_fails`); a stream for reading only may not close itself (`C118_ended_fails`); read-only files are waited for with a callback for writing (`C118_modes_fails`), files for reading are not after one for writing (`C118_callback_fails`). |
| C119 | Model/Digest on Model/Encoder: the loops, the contexts with their state, zlib's functions byte by byte; OpenSSL is a parameter for which pieces do not matter. | Spec/Digest (what each call should give; CRC-32 bit by bit; Adler-32 as sums). Props/Digest: a relation kept by every call; CRC-32 by xor and shift, Adler-32 by induction on the bytes. | MD5, SHA-1 and HMAC themselves are OpenSSL's. |
| C120 | Model/WvConfGen on Model/ConfFile (C72) and Model/Key (C19). | Spec/WvConfGen (values of paths under settings and removals). Props/WvConfGen: by induction over the history, with the printed form of keys without regard to case being injective. | Partial: removing a key leaves its value (`C120_remove_fails`: the whole key is taken for the name of a section), nothing is told when a section is removed (`C120_silent_fails`), empty values are none (`C120_empty_fails`), the root has no children (`C120_root_fails`), keys of three names are listed wrongly (`C120_nested_fails`), an empty section has children (`C120_children_fails`). |
| C121 | Model/Listener: file system, listeners with their queues, and a log. | Spec/Listener (connections that came and were given; modes). Props/Listener: invariants over all histories. | Partial: destroying a listener that was closed removes the socket of a new one at its path (`C121_twice_fails`), a full queue is taken for nobody listening (`C121_busy_fails`), any file at the path is removed (`C121_file_fails`), of two wrappers only the last is used (`C121_wrap_fails`). |
| C122 | Model/BufStream: both buffers and all flags. | Spec/BufStream (bytes sent and received, lines). Props/BufStream: invariants over all histories; induction over the lines of a text. | Partial: delayed output is lost at the end (`C122_close_fails`, `C122_delayed_fails`), with queuemin the end comes too early (`C122_queuemin_fails`), getline without a line hides what is there from read (`C122_mixed_fails`). |
| C123 | Model/StreamsDaemon: the two lists, streams by address, the loop of C97. | Spec/StreamsDaemon (what can happen in a round). Props/StreamsDaemon: stopping in all states, invariants over all histories. | Partial: a connection at the address of an earlier stream of the daemon is closed at a restart (`C123_reuse_fails`). |
| C124 | Model/Auth: the library as any function of the calls so far; the object, the destructor, the connection, users, salts. | Spec/Auth (the calls of an authentication, membership, salt characters). Props/Auth: by composition of steps, by induction over histories. | Partial: groups of an earlier user are kept (`C124_stale_fails`), asking for groups after a failure follows a null pointer (`C124_nobody_fails`), the reason of the first failure is lost (`C124_why_fails`), sessions are closed that are not open and the other way round (`C124_session_fails`), a library that takes no password from programs lets nobody in (`C124_token_fails`), users that do not exist (`C124_name_fails`), numbers of users are never found (`C124_uid_fails`), the same password may look the same (`C124_same_fails`). |
| C125 | Model/Pty: the loops over names, parent and child of the constructor, the calls. | Spec/Pty (pairs in order, fates, expected answers). Props/Pty: by induction over names and histories. | Partial: killed programs finish with 0 (`C125_finish_fails`), programs that were not started are said to be killed or to have ended with 0 (`C125_unstarted_fails`), the names are never stored (`C125_names_fails`), descriptors leak when forking fails (`C125_leak_fails`), the parent may end (`C125_parent_fails`). |
| C126 | Model/Regex: the library as parameters with a contract; the object with its error (C93), registers as strings of the caller. | Spec/Regex (parts of a text, the contract). Props/Regex: by induction over registers and over the line. | Partial: a register that is the text itself (`C126_alias_fails`), `NOSUB` (`C126_nosub_fails`), the message of a bad expression (`C126_message_fails`), errors that stay (`C126_stuck_fails`), the loop with an empty match (`C126_endless_fails`). |
| C127 | Model/KeyAgree: numbers to and from bytes, both classes; the library's drawing of private numbers and its test for primes are parameters. | Spec/KeyAgree (what bytes write, public and shared values). Props/KeyAgree: bytes by induction, agreement by the law of powers, the primes computed by the kernel. | Partial: values a peer must not send are not refused but crash (`C127_peer_fails`), input that is too short (`C127_short_fails`), shortened public values (`C127_truncated_fails`), lengths vary (`C127_length_fails`), the secret is logged (`C127_logged_fails`), a needless error (`C127_generator_fails`), other groups (`C127_unsupported_fails`), a second exchange (`C127_again_fails`). |
| C128 | Model/RsaKey: the object with its key and its mark, which may be unset; the hexadecimal encoder and decoder of C04; the library as a parameter with a contract. | Spec/RsaKey (the contract, hexadecimal text). Props/RsaKey: round trips by C04, an invariant over all ways to make an object. | Partial: private PEM of a key that is marked as public (`C128_pem_fails`), copying a blank object (`C128_copy_fails`), a public key in a private form (`C128_form_fails`), a wrong mark (`C128_mark_fails`), an empty string (`C128_empty_fails`). |
| C129 | Model/CallbackGen: on the in-memory generator of C22, with maps by the order of keys of C20; the functions are parameters with a state. | Spec/CallbackGen (what a user sees, on paths). Props/CallbackGen: refinement by induction over calls. | Partial: functions that use the generator themselves are not modelled; reading a key that no function computes removes it (`C129_before_fails`), iterators do not compute (`C129_iterate_fails`), values are lost without `update_after_set` (`C129_after_fails`). |
| C130 | Model/ListIter: both lists and both iterators. | Spec/ListIter (a list of entries and a place). Props/ListIter: an invariant by induction over calls. | Partial: proved if no key with a value is added after one without; otherwise values go to the wrong keys (`C130_mixed_fails`), and going on after the end crashes (`C130_end_fails`). |
| C131 | Model/ColorLog on Model/LogRcv: the virtual functions with their sequences. | Spec/ColorLog (a terminal that interprets sequences). Props/ColorLog: both consoles run side by side, by induction over characters and messages. | Partial: source names must not have ESC in them (`C131_source_fails`); the line below a finished one is painted too (`C131_below_fails`), the last end of line is not (`C131_destroy_fails`). |
| C132 | Model/PushDir: constructor and destructor with getcwd, chdir, opendir and closedir. | Spec/PushDir (directories with paths and identities, nested scopes). Props/PushDir: induction over the nested sequence; objects of outer scopes are not touched. | Partial: the directory must keep its path (`C132_renamed_fails`, `C132_replaced_fails`), be readable (`C132_unreadable_fails`), and have a path shorter than 2048 (`C132_unnamed_fails`). |
| C133 | Model/Modem: constructor, setup, speed, hangup and close with the calls of close from inside; the driver and all answers are parameters. | Spec/Modem (speeds and their numbers). Props/Modem: an invariant kept by every part, for every schedule. | Partial: speeds need a driver that takes them (`C133_refused_fails`); a speed below 300 drops the line (`C133_slow_fails`); the waiting time of the port is not restored (`C133_wait_fails`); a WvModemBase may have no speed (`C133_base_fails`). |
| C134 | Model/ProcIter: the iterator and wvkillall over the lines that ps prints, with the models of trim_string, split, atol and getfilename. | Spec/ProcIter (processes, their lines and programs). Props/ProcIter: induction over the list of processes. | Partial: a process whose command is a blank stops the caller (`C134_blank_fails`); names with blanks (`C134_name_fails`); the answer does not say that a signal was taken (`C134_taken_fails`). |
| C135 | Model/WatchObj over Model/Watch (C53): constructors, destructor, the compiler's copy constructor and assignment. | Spec/WatchObj (objects that are there), Spec/Watch. Props/WatchObj: invariant over all histories, then C53. | Partial: keys without a slash at the end, as in C53; a copy does not watch (`C135_copy_fails`); an assignment leaves a watch behind (`C135_assign_fails`). |
| C136 | Model/GlobDir over Model/DirWalk (C78) and Model/Glob (C64); regexec is a parameter that finds what Spec/Ere says. | Spec/DirWalk, Spec/Glob. Props/GlobDir: induction over what is shown, then C64 and C78. | Partial: patterns of C64; with an error in the pattern everything is shown (`C136_error_fails`); wrong after rewinding inside of a directory (`C136_rewind_fails`). |
| C137 | Model/Crash: the ring buffer byte by byte, the two loops that write a number, the loop that writes an address, the buffer of the will. | Spec/Crash: a queue with the last bytes, decimal and hexadecimal digits, a stack of wills. Props/Crash: refinement of the ring buffer to the queue; induction over digits; induction over histories. | Partial: a NUL in a text hides what follows (`C137_nul_fails`); a result does not survive the next one (`C137_keep_fails`); numbers that end with 0 lose their zeros (`C137_zero_fails`) and large ones are undefined (`C137_large_fails`). |
| C138 | Model/ConStream over Model/FdStream (C118), with the virtual `close` and `isok` of the console streams. | Spec/ConStream: what was written, and that nothing ends a descriptor. Props/ConStream: invariants by induction over the depth of calls and over histories. | Partial: stopping one direction closes the descriptor (`C138_stop_fails`); output that is in the buffer when the stream is closed is lost (`C138_lost_fails`). |
| C139 | Model/SelfRun over Model/ProcQueue (C44): the alarm that is set after each look; the timeout stream. | Spec/SelfRun (histories and the clock), Spec/ProcQueue. Props/SelfRun: an invariant on the alarm by induction over histories; refinement to histories of C44. | Proved; the clock does not go backwards here (for that see C77). |
| C140 | Model/FsTree: the list of mounts with what each file holds, automount, mount with the keys it sets on the way, get. | Spec/FsTree (the value of a key in a file). Props/FsTree: two invariants on the list of mounts, before and after the file is looked up. | Partial: fails if a key below a file is looked up before the file (it is empty), and if a key between the root and the file is looked up afterwards (its newer mount hides the file). Setting values and notifications are left out. |
| C141 | Model/Wrap over Model/IGen: the three generators as answers to requests. | Spec/Wrap (requests, answers, which of them wait). Props/Wrap: induction over histories. | Partial: the generator that counts does not pass on requests for flushing (C141_flush_fails). Recursive iterators and notifications are left out. |
| C142 | Model/ShmZone: the constructor with the conversion of the size and the answers of open and mmap, the destructor. | Spec/ShmZone (what a process has from the system). Props/ShmZone: by cases over the answers, for all sizes. | Partial: below two gigabytes. C142_large_fails, C142_stop_fails: a zone of four gigabytes and a byte has one byte, and one of two gigabytes stops the program. |
| C143 | Model/Loopback over Model/FdStream (C118): the constructors. | Spec/Loopback (what was sent and received on descriptors, and what the system keeps). Props/Loopback: an invariant on output and input for the functions of a stream that call each other, by induction over the depth of calls, and then over histories. | Partial: without unreading, stopping one direction, close callbacks and opening files. |
| C144 | Model/MagicLoop: the steps of a reader and a writer with the bytes in the circle and in the socket. | Spec/MagicLoop (what the processes do). Props/MagicLoop: invariants by induction over interleavings. | Partial: fails if the writer waits for something with the same stream, as it may take the byte that was to wake the reader (C144_stolen_fails). The buffers of streams are left out. |
| C145 | Model/CircleMem: the constructor over Model/ShmZone with `int` conversions, and the addresses that put and get touch. | Spec/CircleMem (memory that a process has), Spec/ShmZone. Props/CircleMem: arithmetic over all sizes and positions. | Partial: a circle that got no memory is touched by put and get all the same (C145_broken_fails), and sizes over four gigabytes are cut (C145_large_fails).
| C146 | Model/RawIp: write, flush and read with the system's answers as parameters. | Spec/RawIp (what is to be sent). Props/RawIp: an invariant by induction over all calls. | Partial: packets of their own only while the system refuses none; otherwise they are merged (C146_merge_fails).

### Streams, files, processes, logs

| id | modelled | proof | disagreements |
|----|----------|-------|---------------|
| C29-C31 | `wvstream.cc` I/O against an arbitrary device, `seterr`, `close`, close callbacks | history invariants (accepted = sent ++ buffered) | limits lowered below what is buffered; a gap when a device reports an error of number 0 |
| C42 | `wvatomicfile.cc` over a file system model, all crash points, joined with the stream model | invariant over system calls | after a write error the partial file is still renamed into place; power loss, as nothing is synchronised |
| C43 | `wvlockfile.cc`, any number of processes | interleaving invariant | four races |
| C44 | `wvsubprocqueue.cc` | history invariants; liveness over infinite fair schedules | two promises of the header comment |
| C46 | `wvlogrcv.cc`, `wvlogbuffer.cc` | history induction | `feed_receiver` joins lines |
| C48 | `wvmoniker.cc` | history induction | destroying the older of two objects unregisters the newer; trailing white space |
| C52 | `wvistreamlist.cc` | invariant over the two passes, replay of an event log against a queue | prepend during `post_select`; a stream that is in a list twice |

## 4. What is not modelled

* Operating system calls beyond the small models of files, locks, processes, sockets, terminals and directories above; signals (but those
  of C61, C96 and C97 as far as said there); `setjmp`/`longjmp` task switching below the interface of C40; threads other than in C14 and C43.
* The insides of OpenSSL, zlib, the D-Bus daemon, PAM, the regular expressions of the C library, the resolver and the kernel: they are
  parameters, with a contract that the theorem states, or answers from a list that is quantified over.
* Memory: allocation failure, ownership and double frees, but where a model has an explicit heap or block (C34, C40, C41, C51).
* Of the classes above: `WvConstStringBuffer`-like wrappers, cursor buffers, `UniConfKey`'s copy-on-write store, `select`'s timing in
  streams other than in the timed ones, time stamps of logs, notifications of list and transaction generators (but the key they are
  given), `UniIniGen`'s notifications and its writing in place when a file cannot be replaced. Each model file says in its heading or
  beside the definition what it leaves out.
* Source files no model cites: `wvcrypto.cc`, `wvtundev.cc`,
  `wvgzipstream.cc`, `wvlogstream.cc`,
  `unigenhack.cc`,
  `unireadonlygen.cc`, `wvhttpcomponent.cc`, `wvstringlist.cc` and `wvstringtable.cc`
  (but `split` and `join`, C35), and the directories `qt`, `win32`, `xplc-cxx` and `argp`.
* Performance.

## 5. Defects seen but not modelled

Findings from reading the code that no theorem is about:

* `UniConfKey::unique` returns early if the reference count is 1 although `left > 0`; `append` then writes past the vector (for instance
  "a/b/c/d", `pop(2)`, `append("e/f")`); `prepend` with `left > 0` leaves `right` beyond the vector; self-assignment frees first.
* `UniSecureGen(moniker, perms)` leaves `perms` uninitialised; `UniSecureIter` over an inner iterator that is NULL crashes;
  `UniTempGen`'s constructor leaves `dirty` uninitialised.
* `WvBackslash` with bounded output: `outbuf.unget` for `inbuf.unget`, and the decoder puts one character too many back.
* `WvCounterModeEncoder` underflows a count if the key function fails while flushing; `encodebufmem` ignores its `flush` parameter.
* `WvList` iterators: `unlink` after a prepend between the two links it knows removes the wrong element.
* `WvStreamList`: `post_select` of a stream that removes other streams uses freed links.
* `WvAttrs` default assignment shares memory, which is then freed twice. `WvStringMask::set` with a character from 0x80 on writes out of
  bounds where `char` is signed.
* `WvLog` with levels from 10 on reads past the table of level names.
* `strreplace` with an empty needle does not end; `spacecat` with `onesep` underflows; `metriculate(0)` is empty.

{"id": "C01", "title": "Base64 round trip", "statement": "Pushing any byte string through WvBase64Encoder (split into any sequence of encode() calls, then finish()) succeeds, and pushing the resulting text through WvBase64Decoder (again split any way, including one byte at a time) outputs exactly the original bytes and leaves the decoder without error.", "quantifier": "every byte string, every way of cutting the input of the encoder into chunks, every way of cutting the text given to the decoder", "why_tests_cant": "The byte strings and the chunkings are infinite sets; the encoder carries partial bits between calls so a test only samples (length mod 3, cut position) pairs.", "anchors": [{"file": "utils/wvbase64.cc", "symbols": ["WvBase64Encoder::_encode", "WvBase64Encoder::_finish", "WvBase64Decoder::_encode"]}, {"file": "utils/wvencoder.cc", "symbols": ["WvEncoder::encode", "WvEncoder::finish"]}]}
{"id": "C02", "title": "Base64 encoder output is RFC 4648 base64", "statement": "The text produced by WvBase64Encoder is the standard base64 encoding: the bits of the input read most significant first, cut in groups of six, mapped through the A-Za-z0-9+/ alphabet and padded with '=' to a multiple of four characters; it does not depend on how the input was chunked.", "quantifier": "every byte string and every chunking", "why_tests_cant": "Interoperability with other base64 implementations is a statement about all inputs.", "anchors": [{"file": "utils/wvbase64.cc", "symbols": ["WvBase64Encoder::_encode", "WvBase64Encoder::_finish"]}]}
{"id": "C03", "title": "Base64 decoder rejects garbage and is insensitive to chunking", "statement": "If the text contains a byte that is neither an alphabet character, nor white space, nor '=', the decoder reports an error (isok() false) and outputs only bytes decoded before it; white space never changes the output; the bytes output and the error status never depend on where the text was cut into encode() calls.", "quantifier": "every text and every chunking of it", "why_tests_cant": "Malformed texts and cut positions are unbounded.", "anchors": [{"file": "utils/wvbase64.cc", "symbols": ["WvBase64Decoder::_encode", "WvBase64Decoder::lookup"]}, {"file": "utils/wvencoder.cc", "symbols": ["WvEncoder::encode"]}]}
{"id": "C04", "title": "Hex round trip", "statement": "WvHexEncoder produces exactly two hex digits per byte, and WvHexDecoder recovers the original bytes from that text (upper or lower case, with any white space inserted anywhere), for every chunking on either side; a non-hex, non-space character makes the decoder fail.", "quantifier": "every byte string, every white space insertion and every chunking", "why_tests_cant": "Unbounded inputs, and a half-decoded digit is carried between calls.", "anchors": [{"file": "utils/wvhex.cc", "symbols": ["WvHexEncoder::_encode", "WvHexDecoder::_encode"]}]}
{"id": "C05", "title": "Backslash escaping round trip", "statement": "WvBackslashEncoder output, fed to WvBackslashDecoder with flush at the end, gives back the original bytes for every byte string and every chunking.", "quantifier": "every byte string, every set of extra characters to escape containing the backslash, every chunking", "why_tests_cant": "The decoder is a seven state machine whose octal/hex states depend on the following characters; correctness needs all adjacent character combinations.", "anchors": [{"file": "utils/wvbackslash.cc", "symbols": ["WvBackslashEncoder::_encode", "WvBackslashDecoder::_encode", "WvBackslashDecoder::flushtmpbuf"]}]}
{"id": "C06", "title": "Encoder life cycle", "statement": "For every encoder: once it has been finished or has reported an error, encode() and flush() fail without consuming or producing data until reset(); finish() can succeed at most once between resets; reset() makes an encoder behave exactly like a new one.", "quantifier": "every concrete encoder and every history of encode/flush/finish/reset calls", "why_tests_cant": "Histories are unbounded.", "anchors": [{"file": "utils/wvencoder.cc", "symbols": ["WvEncoder::encode", "WvEncoder::finish", "WvEncoder::reset"]}]}
{"id": "C07", "title": "XOR encoder is an involution", "statement": "Two WvXOREncoders created with the same non-empty key are inverse to each other: feeding the output of one to the other restores the data however both byte streams are chunked.", "quantifier": "every key, every data, every pair of chunkings", "why_tests_cant": "The key offset persists across calls; inputs and chunkings are unbounded.", "anchors": [{"file": "crypto/wvxor.cc", "symbols": ["WvXOREncoder::_encode"]}]}
{"id": "C08", "title": "Counter mode decrypts what it encrypts", "statement": "Two WvCounterModeEncoders set up with the same block function and the same counter undo one another when driven with the same sequence of chunk lengths and flushes, for any block function; no two blocks use the same counter value until all 2^(8*size) values were used.", "quantifier": "every block function, counter, data and flush history", "why_tests_cant": "The claim ranges over all block ciphers and histories, and counter reuse only shows after astronomically many blocks.", "anchors": [{"file": "crypto/wvcountermode.cc", "symbols": ["WvCounterModeEncoder::_encode", "WvCounterModeEncoder::incrcounter"]}]}
{"id": "C09", "title": "Encoder chains compose", "statement": "Running data through a WvEncoderChain gives the same bytes as running it through each encoder in order; a chain of encoders followed by their decoders in reverse order is the identity.", "quantifier": "every list of encoders and every input history", "why_tests_cant": "Chains and histories are unbounded.", "anchors": [{"file": "utils/wvencoder.cc", "symbols": ["WvEncoderChain::do_encode", "WvEncoderChain::_encode", "WvEncoderChain::_finish"]}]}
{"id": "C10", "title": "Buffers are FIFO queues with undo", "statement": "For an in-place, circular or dynamic buffer, any sequence of legal operations (put/alloc, get, unget, unalloc, peek, poke, zap) behaves like one abstract queue: get returns the oldest bytes in order, nothing is lost, duplicated or altered by internal wrap-around, compaction, growth or splitting into sub-buffers; used() is always the number of bytes put and not yet taken.", "quantifier": "every finite history of operations meeting the documented preconditions, every capacity", "why_tests_cant": "Wrap-around, compaction and sub-buffer boundaries only occur at particular combinations of head position, length and request size.", "anchors": [{"file": "utils/wvbufferstore.cc", "symbols": ["WvInPlaceBufStore", "WvCircularBufStore", "WvLinkedBufferStore", "WvDynBufStore"]}, {"file": "include/wvbufbase.h", "symbols": ["WvBufBase"]}]}
{"id": "C11", "title": "unget restores exactly what was taken", "statement": "If ungettable() >= n then unget(n) makes the next n bytes returned be the last n bytes previously taken, in their original order, and a get of k bytes immediately followed by unget of k leaves the readable content unchanged.", "quantifier": "every buffer state and history", "why_tests_cant": "The history window depends on wrap-around and on earlier allocs.", "anchors": [{"file": "utils/wvbufferstore.cc", "symbols": ["WvInPlaceBufStore::unget", "WvCircularBufStore::unget", "WvLinkedBufferStore::unget"]}]}
{"id": "C12", "title": "merge conserves bytes", "statement": "dst.merge(src, n) removes exactly the first n bytes of src, appends exactly those bytes in order to dst and touches nothing else, whether it copies or steals whole sub-buffers.", "quantifier": "every pair of buffers and every n within the documented limits", "why_tests_cant": "Which path runs depends on sub-buffer layouts that arise from arbitrary histories.", "anchors": [{"file": "utils/wvbufferstore.cc", "symbols": ["WvBufStore::merge", "WvBufStore::basicmerge", "WvLinkedBufferStore"]}]}
{"id": "C13", "title": "Magic circle is a bounded FIFO", "statement": "WvMagicCircle put/get/skip over any history behave like a queue of capacity size: put accepts min(len,left()) bytes, get returns the oldest bytes in order, used()+left() is constant.", "quantifier": "every capacity and every history of put/get/skip", "why_tests_cant": "Wrap-around positions and histories are unbounded.", "anchors": [{"file": "utils/wvmagiccircle.cc", "symbols": ["WvMagicCircle::put", "WvMagicCircle::get", "WvMagicCircle::skip"]}]}
{"id": "C14", "title": "Magic circle is safe for one reader and one writer running concurrently", "statement": "When one thread or process only writes and another only reads, every interleaving of the individual shared-memory steps gives the reader a prefix of what the writer wrote, in order, and no unread byte is ever overwritten.", "quantifier": "every interleaving of the atomic steps of the two sides, every capacity and every sequence of calls", "why_tests_cant": "Schedules are unbounded and not controllable from a test.", "anchors": [{"file": "utils/wvmagiccircle.cc", "symbols": ["WvMagicCircle::put", "WvMagicCircle::get"]}, {"file": "include/wvmagiccircle.h", "symbols": ["WvMagicCircle"]}]}
{"id": "C15", "title": "Tcl string escape round trip", "statement": "wvtcl_unescape(wvtcl_escape(s)) == s for every string, and the escaped form is a single word: wvtcl_getword on it followed by a separator returns exactly s.", "quantifier": "every NUL-free string and set of extra characters to quote", "why_tests_cant": "Brace balance and backslash parity interact; all strings must be covered.", "anchors": [{"file": "utils/wvtclstring.cc", "symbols": ["wvtcl_escape", "wvtcl_unescape", "wvtcl_getword"]}]}
{"id": "C16", "title": "Tcl list round trip", "statement": "wvtcl_decode(wvtcl_encode(list)) == list for every list of strings, including empty strings and strings with braces, quotes, backslashes and newlines.", "quantifier": "every list of NUL-free strings", "why_tests_cant": "Lists and contents are unbounded and elements interact through separators.", "anchors": [{"file": "utils/wvtclstring.cc", "symbols": ["wvtcl_encode", "wvtcl_decode", "wvtcl_getword"]}]}
{"id": "C17", "title": "Scatter hash is a multiset with correct lookup", "statement": "After any history of add/remove/zap, find(key) on a WvScatterHash returns an element with that key iff one was added and not removed; count() is the number of elements; iteration visits each exactly once; growth and deleted-slot reuse never lose or duplicate an element; probing always terminates.", "quantifier": "every hash function, key type and history", "why_tests_cant": "Collisions, tombstones and rebuilds depend on the hash function and the whole history.", "anchors": [{"file": "utils/wvscatterhash.cc", "symbols": ["WvScatterHashBase::_add", "WvScatterHashBase::_remove", "WvScatterHashBase::genfind", "WvScatterHashBase::rebuild"]}, {"file": "include/wvscatterhash.h", "symbols": ["WvScatterHash"]}]}
{"id": "C18", "title": "Chained hash table is a dictionary", "statement": "After any history of add/remove/zap on a WvHashTable, lookup finds an element iff one with that key is present, and lookup returns the earliest added element with that key.", "quantifier": "every hash function and history", "why_tests_cant": "Collisions depend on hash function and history.", "anchors": [{"file": "utils/wvhashtable.cc", "symbols": ["WvHashTableBase::genfind"]}, {"file": "include/wvhashtable.h", "symbols": ["WvHashTable"]}]}
{"id": "C19", "title": "UniConf key algebra", "statement": "Parsing the printable form of any key gives the same key; joining keys is associative with the empty key as unit; removefirst/first, removelast/last and range split a key and joining the parts gives the key back; numsegments is additive.", "quantifier": "every key", "why_tests_cant": "Keys are unbounded; empty segments and trailing slashes interact.", "anchors": [{"file": "uniconf/uniconfkey.cc", "symbols": ["UniConfKey"]}, {"file": "include/uniconfkey.h", "symbols": ["UniConfKey"]}]}
{"id": "C20", "title": "UniConf key order and containment", "statement": "compareto() is a total order up to letter case compatible with equality and with the hash; a.suborsame(b, rest) holds exactly when b equals a joined with rest, up to letter case and a trailing slash.", "quantifier": "every pair and triple of keys", "why_tests_cant": "Transitivity and antisymmetry are statements about all triples.", "anchors": [{"file": "uniconf/uniconfkey.cc", "symbols": ["UniConfKey::compareto", "UniConfKey::suborsame", "UniConfKey::subkey", "WvHash"]}]}
{"id": "C21", "title": "UniConf key wildcard matching", "statement": "key.matches(pattern) holds exactly when the key can be obtained from the pattern by replacing each '*' segment with one segment and each '...' segment with any number of segments.", "quantifier": "every key and pattern", "why_tests_cant": "Backtracking over '...' makes the set of cases unbounded.", "anchors": [{"file": "uniconf/uniconfkey.cc", "symbols": ["UniConfKey::matches"]}]}
{"id": "C22", "title": "In-memory UniConf tree is a map", "statement": "On a UniTempGen, after any history of set/remove: get(k) is the last value set at k unless k or an ancestor was removed since, or \"\" if k only exists as an ancestor of a set key, or null otherwise; exists, haschildren and iteration agree with get.", "quantifier": "every history of set calls (including null values) and every key", "why_tests_cant": "Histories and trees are unbounded.", "anchors": [{"file": "uniconf/unitempgen.cc", "symbols": ["UniTempGen::set", "UniTempGen::get", "UniTempGen::haschildren"]}, {"file": "uniconf/unihashtree.cc", "symbols": ["UniHashTreeBase::_findchild"]}]}
{"id": "C23", "title": "UniConf notifications mirror the tree", "statement": "Replaying the notifications a UniTempGen emits (key, new value) on a plain mirror of the tree keeps the mirror equal to the generator for every history, and a set that changes nothing emits nothing.", "quantifier": "every history of sets", "why_tests_cant": "A missed notification can be triggered only by particular subtree shapes.", "anchors": [{"file": "uniconf/unitempgen.cc", "symbols": ["UniTempGen::set", "UniTempGen::notify_deleted"]}, {"file": "uniconf/uniconfgen.cc", "symbols": ["UniConfGen::delta"]}]}
{"id": "C24", "title": "Held notifications are delivered in order, exactly once", "statement": "Between hold_delta and the matching unhold_delta nothing is delivered; at the outermost unhold (or flush) every queued notification is delivered exactly once in order, for every nesting, unless clear_delta dropped it.", "quantifier": "every sequence of hold/unhold/delta/flush/clear", "why_tests_cant": "Nesting histories are unbounded.", "anchors": [{"file": "uniconf/uniconfgen.cc", "symbols": ["UniConfGen::hold_delta", "UniConfGen::unhold_delta", "UniConfGen::flush_delta", "UniConfGen::clear_delta", "UniConfGen::delta"]}]}
{"id": "C25", "title": "Filter generators implement the access they promise", "statement": "A read-only generator never changes the underlying configuration through any call; a subtree generator reads and writes exactly the keys below its root; a secure generator lets a call through only if the permission tree allows it.", "quantifier": "every inner generator state and every call of the generator interface", "why_tests_cant": "The claim is about every entry point and every state.", "anchors": [{"file": "uniconf/unireadonlygen.cc", "symbols": ["UniReadOnlyGen"]}, {"file": "uniconf/unisubtreegen.cc", "symbols": ["UniSubtreeGen"]}, {"file": "uniconf/unisecuregen.cc", "symbols": ["UniSecureGen"]}, {"file": "uniconf/unifiltergen.cc", "symbols": ["UniFilterGen"]}]}
{"id": "C26", "title": "List generator gives the first answer", "statement": "A UniListGen get returns the value of the first generator in the list in which the key exists, set is applied to every generator.", "quantifier": "every list of generators, every state and key", "why_tests_cant": "Lists and states unbounded.", "anchors": [{"file": "uniconf/unilistgen.cc", "symbols": ["UniListGen::get", "UniListGen::set", "UniListGen::exists"]}]}
{"id": "C27", "title": "Mount generator routes by mount point", "statement": "A UniMountGen sends an operation on a key to the generator mounted at the longest matching prefix, with the remaining suffix as key, and to nobody else.", "quantifier": "every set and order of mounts, every key", "why_tests_cant": "Overlapping mounts give unboundedly many prefix configurations.", "anchors": [{"file": "uniconf/unimountgen.cc", "symbols": ["UniMountGen::findmount", "UniMountGen::get", "UniMountGen::set", "UniMountGen::mountgen"]}]}
{"id": "C28", "title": "Transactions are isolated and commit what was seen", "statement": "Reads through a UniTransactionGen show the base overlaid with the pending writes; pending writes never touch the base before commit; commit makes the base equal to the view; refresh/rollback discards them.", "quantifier": "every base state and history of set/get/commit/refresh", "why_tests_cant": "Overlay trees and histories are unbounded.", "anchors": [{"file": "uniconf/unitransactiongen.cc", "symbols": ["UniTransactionGen"]}]}
{"id": "C29", "title": "Stream write delivers each byte once and in order", "statement": "Whatever sequence of partial writes the underlying device accepts, the bytes accepted by WvStream::write are handed to the device in order, without loss, duplication or reordering, and write() never accepts more than the output buffer limit allows.", "quantifier": "every history of write/delay_output/flush calls and every device behaviour", "why_tests_cant": "Device behaviours (short writes) are arbitrary.", "anchors": [{"file": "streams/wvstream.cc", "symbols": ["WvStream::write", "WvStream::flush_outbuf", "WvStream::uwrite", "WvStream::outbuf_limit"]}]}
{"id": "C30", "title": "Stream read delivers each byte once and in order", "statement": "The concatenation of data returned by read/getline over any history is a prefix of what the device produced (separators of getline included), and unread() puts data back in front.", "quantifier": "every history and every device behaviour", "why_tests_cant": "Unbounded histories of short reads.", "anchors": [{"file": "streams/wvstream.cc", "symbols": ["WvStream::read", "WvStream::blocking_getline", "WvStream::unread", "WvStream::queuemin"]}]}
{"id": "C31", "title": "Close is notified exactly once, errors stick", "statement": "Over any history of calls, the close callback is invoked at most once per open, exactly once when the stream closes; after the first error geterr() stays that error and isok() stays false; no data is written after the stream was closed.", "quantifier": "every history including callbacks that close again", "why_tests_cant": "Re-entrancy and histories are unbounded.", "anchors": [{"file": "streams/wvstream.cc", "symbols": ["WvStream::close", "WvStream::seterr", "WvStream::setclosecallback", "WvStream::isok"]}]}
{"id": "C32", "title": "Integers print and parse exactly", "statement": "WvString of any integer is its canonical decimal representation, and num() of that string gives the integer back.", "quantifier": "every value of every supported integer type", "why_tests_cant": "2^64 values; extreme values overflow.", "anchors": [{"file": "utils/wvstring.cc", "symbols": ["wv_itoar", "wv_uitoar", "strrev", "WvFastString::num"]}, {"file": "include/wvstrutils.h", "symbols": ["wvstring_to_num"]}]}
{"id": "C33", "title": "URL encoding round trip", "statement": "url_decode(url_encode(s)) == s for every string; url_encode emits only URL-safe characters and percent escapes.", "quantifier": "every string", "why_tests_cant": "Unbounded inputs, signed character handling.", "anchors": [{"file": "utils/wvstrutils.cc", "symbols": ["url_encode", "url_decode"]}]}
{"id": "C34", "title": "C string escape round trip", "statement": "cstr_unescape(cstr_escape(data)) returns true with exactly the data, for any bytes including NUL, with or without the Tcl-safe extra escapes; concatenated escaped strings decode to concatenated data; a too small buffer is reported with the needed size and never overflowed.", "quantifier": "every byte string, buffer size and list of pieces", "why_tests_cant": "Unbounded inputs.", "anchors": [{"file": "utils/wvstrutils.cc", "symbols": ["cstr_escape", "cstr_unescape"]}]}
{"id": "C35", "title": "Split and join are inverse", "statement": "strcoll_splitstrict(strcoll_join(l, sep), sep) == l for every non-empty list of strings not containing the separator; split with no limit returns the maximal separator-free pieces in order.", "quantifier": "every list of strings and separator set", "why_tests_cant": "Unbounded lists.", "anchors": [{"file": "include/wvstrutils.h", "symbols": ["strcoll_split", "strcoll_splitstrict", "strcoll_join"]}]}
{"id": "C36", "title": "Time arithmetic is exact and normalised", "statement": "For normalised times, msecadd and tvdiff return normalised times that are exact; tvdiff(a,b) is the a-b of the real line; msecdiff truncates toward zero and saturates.", "quantifier": "every pair of times and every offset", "why_tests_cant": "Borrow/carry corner cases over unbounded values.", "anchors": [{"file": "utils/wvtimeutils.cc", "symbols": ["msecadd", "tvdiff", "msecdiff"]}, {"file": "include/wvtimeutils.h", "symbols": ["normalize"]}]}
{"id": "C37", "title": "Version numbers round trip", "statement": "string_to_ver(ver_to_string(v)) == v for each of the 2^32 version numbers.", "quantifier": "every 32 bit value", "why_tests_cant": "2^32 values.", "anchors": [{"file": "utils/verstring.cc", "symbols": ["ver_to_string", "string_to_ver", "trim_verstr"]}]}
{"id": "C38", "title": "IP addresses print, parse, add and subtract exactly", "statement": "WvIPAddr(printable()) is the same address; (a + n) - n == a; the bitwise operators act on all 32 bits.", "quantifier": "every address and integer", "why_tests_cant": "2^32 * 2^32 values.", "anchors": [{"file": "ipstreams/wvaddr.cc", "symbols": ["WvIPAddr::string_init", "WvIPAddr::printable", "WvIPAddr::operator+"]}]}
{"id": "C39", "title": "IP networks contain what they say", "statement": "net.includes(sub) holds iff every address of sub is an address of net; after a.include(b), a includes both; a mask built from n bits (0..32) reports bits() == n and normalize() leaves it unchanged.", "quantifier": "every pair of networks, contiguous mask or not", "why_tests_cant": "2^128 cases.", "anchors": [{"file": "ipstreams/wvaddr.cc", "symbols": ["WvIPNet::includes", "WvIPNet::include", "WvIPNet::bits", "WvIPNet::normalize"]}]}
{"id": "C40", "title": "Serialisation round trip", "statement": "wv_deserialize of wv_serialize gives the value back for every integer, string and list, and consumes exactly the bytes written so consecutive values can be read back in order; a truncated integer reads as 0 without consuming.", "quantifier": "every value, every trailing data", "why_tests_cant": "Unbounded values.", "anchors": [{"file": "include/wvserialize.h", "symbols": ["wv_serialize_scalar", "wv_deserialize_scalar"]}, {"file": "utils/wvserialize.cc", "symbols": ["_wv_deserialize<WvString>"]}]}
{"id": "C41", "title": "Stream attributes are a map", "statement": "WvAttrs get returns the last non-empty value set for a name, setting an empty value deletes, other names are unaffected; its flat memory block stays well formed.", "quantifier": "every history of set calls", "why_tests_cant": "Byte-level moves inside one block depend on all previous entries.", "anchors": [{"file": "utils/wvattrs.cc", "symbols": ["WvAttrs::set", "WvAttrs::_get"]}]}
{"id": "C42", "title": "Atomic file never exposes a partial file", "statement": "At every crash point between opening and closing a WvAtomicFile the target path holds either its complete old content or the complete new content.", "quantifier": "every crash point, every content and every sequence of writes", "why_tests_cant": "Crash points cannot be enumerated by unit tests.", "anchors": [{"file": "streams/wvatomicfile.cc", "symbols": ["WvAtomicFile::open", "WvAtomicFile::close"]}]}
{"id": "C43", "title": "Lock files give mutual exclusion", "statement": "Of any number of processes calling WvLockFile::lock() on one name concurrently, at most one believes it holds the lock at any time.", "quantifier": "every interleaving of file system operations of any number of processes", "why_tests_cant": "Races depend on schedules.", "anchors": [{"file": "streams/wvlockfile.cc", "symbols": ["WvLockFile::lock", "WvLockFile::readpid", "WvLockFile::unlock"]}]}
{"id": "C44", "title": "Process queue limits and orders", "statement": "WvSubProcQueue never runs more than maxrunning processes; a process with a cookie runs alone, after everything queued before it finished and before anything queued after it starts; every queued process is eventually started once, in queue order. An add with a cookie that already waits may be merged with the waiting one, but a process with that cookie is started after everything queued at that moment has finished.", "quantifier": "every history of add/go and every pattern of process terminations", "why_tests_cant": "Terminations are asynchronous.", "anchors": [{"file": "utils/wvsubprocqueue.cc", "symbols": ["WvSubProcQueue::add", "WvSubProcQueue::go"]}]}
{"id": "C45", "title": "Word wrap respects the width and keeps the words", "statement": "WvWordWrapEncoder never emits a line longer than maxwidth, never writes outside its line buffer, and its output has the same non-blank characters in the same order as its input.", "quantifier": "every input, every chunking and every positive width", "why_tests_cant": "Internal indexes depend on all previous characters.", "anchors": [{"file": "utils/wvwordwrap.cc", "symbols": ["WvWordWrapEncoder::_encode", "WvWordWrapEncoder::flushline"]}]}
{"id": "C46", "title": "Log buffer keeps the most recent messages", "statement": "A WvLogBuffer holds, for each (source, level), exactly the last max_lines messages, in arrival order.", "quantifier": "every sequence of messages", "why_tests_cant": "Histories unbounded.", "anchors": [{"file": "streams/wvlogbuffer.cc", "symbols": ["WvLogBuffer::handle_msg", "WvLogBuffer::MsgCounter::add"]}]}
{"id": "C47", "title": "Case-insensitive hashing agrees with case-insensitive equality", "statement": "Strings that differ only in letter case have the same WvHash.", "quantifier": "every pair of strings", "why_tests_cant": "Unbounded strings.", "anchors": [{"file": "utils/wvhash.cc", "symbols": ["WvHash"]}]}
{"id": "C48", "title": "Moniker registry", "statement": "wvcreate uses the most recently registered factory still registered for a prefix; unregistering uncovers the previous one; the part after the first colon is handed over unchanged.", "quantifier": "every history of registrations", "why_tests_cant": "Histories unbounded.", "anchors": [{"file": "utils/wvmoniker.cc", "symbols": ["WvMonikerRegistry::add", "WvMonikerRegistry::del", "WvMonikerRegistry::create"]}]}
{"id": "C49", "title": "INI files round trip", "statement": "Saving a UniIniGen and loading the file in a fresh one gives the same keys and values.", "quantifier": "every configuration tree", "why_tests_cant": "Values containing newlines, brackets, equal signs, braces and spaces interact with section layout.", "anchors": [{"file": "uniconf/uniinigen.cc", "symbols": ["UniIniGen::refresh", "UniIniGen::save", "UniIniGen::commit_atomic"]}]}
{"id": "C50", "title": "UniConf wire protocol framing", "statement": "A command and its arguments written on a UniClientConn are read back as the same command and arguments by the peer, whatever characters the arguments contain.", "quantifier": "every command and list of argument strings", "why_tests_cant": "Unbounded strings with quoting and newlines.", "anchors": [{"file": "uniconf/uniclientconn.cc", "symbols": ["UniClientConn::writecmd", "UniClientConn::readcmd", "UniClientConn::readarg"]}]}
{"id": "C51", "title": "Linked list operations", "statement": "WvList append, prepend, unlink, reverse and iteration behave like a mathematical sequence; the tail pointer is always right so append after any history adds at the end.", "quantifier": "every history of list operations", "why_tests_cant": "Pointer aliasing histories are unbounded.", "anchors": [{"file": "utils/wvlinklist.cc", "symbols": ["WvLink", "WvListBase::reverse", "WvListBase::IterBase::find"]}, {"file": "include/wvlinklist.h", "symbols": ["WvListBase"]}]}
{"id": "C52", "title": "Stream list calls each ready stream once and drops dead ones", "statement": "In each select/callback round of a WvIStreamList every stream that reported ready is called back exactly once, no other is called, and a stream that is no longer ok is removed.", "quantifier": "every list of streams, readiness and set of callbacks that add or close streams", "why_tests_cant": "Re-entrant modifications during iteration.", "anchors": [{"file": "streams/wvistreamlist.cc", "symbols": ["WvIStreamList::post_select", "WvIStreamList::execute"]}]}
{"id": "C53", "title": "UniConf watches", "statement": "A callback set with UniConf::add_callback is called for every change of its key, and of every key below it if it is recursive, with the place of the change relative to its key, also when the key goes away because one above it is removed; it is called for nothing else, and no more after del_callback.", "quantifier": "every history of adding and removing watches, every history of changes, every key", "why_tests_cant": "Watches on nested keys, deletions of whole subtrees and letter case interact in unboundedly many ways.", "anchors": [{"file": "uniconf/uniconfroot.cc", "symbols": ["UniConfRoot::add_callback", "UniConfRoot::del_callback", "UniConfRoot::check", "UniConfRoot::deletioncheck", "UniConfRoot::prune", "UniConfRoot::gen_callback"]}]}
{"id": "C54", "title": "Recursive iterators visit everything below a key", "statement": "A loop over the recursive iterator of a key ends, and visits every key below it exactly once, with its value, each before the keys below it; nothing else is visited.", "quantifier": "every configuration, key and order of the keys of one level", "why_tests_cant": "Trees of any depth and width, and any order of their children.", "anchors": [{"file": "uniconf/uniconfgen.cc", "symbols": ["_UniConfGenRecursiveIter", "UniConfGen::recursiveiterator"]}]}
{"id": "C55", "title": "Iterating over a wildcard pattern", "statement": "A loop over UniConf::XIter(top, pattern) visits exactly the existing keys below top that the pattern stands for, where * stands for one name and ... for any number of names, each once.", "quantifier": "every configuration, key and pattern", "why_tests_cant": "Patterns and trees of unbounded size.", "anchors": [{"file": "uniconf/uniconf.cc", "symbols": ["UniConf::XIter::XIter", "UniConf::XIter::rewind", "UniConf::XIter::next", "UniConf::XIter::qnext"]}]}
{"id": "C56", "title": "A configuration used through a client and a daemon behaves as one that is used directly", "statement": "A program uses a UniConf client generator that is connected to a daemon, while others change the daemon's configuration. Then there is one order of the program's operations and the others' changes such that everything the program is told is right if things happened one after the other in that order: the program's operations are in it in the order in which they were called, each between its call and its return if it returns something, and what the daemon ends up with is what they make of what it started with. If the network delivers what is sent, every operation returns and every change is made. Notifications reach the program in the order in which they were sent.", "quantifier": "all programs, keys and values, all changes by others at any time, all notifications, all ways the bytes are cut up and delayed in both directions, all interleavings of the two ends, and all generators behind the daemon that behave as a configuration", "why_tests_cant": "The replies carry no number, so whether each reply is matched with its question depends on every message exchanged before; a test runs one schedule over one connection.", "anchors": [{"file": "uniconf/uniclientgen.cc", "symbols": ["UniClientGen::get", "UniClientGen::set", "UniClientGen::setv", "UniClientGen::haschildren", "UniClientGen::do_iterator", "UniClientGen::conncallback", "UniClientGen::do_select"]}, {"file": "uniconf/daemon/uniconfdaemonconn.cc", "symbols": ["UniConfDaemonConn::execute", "UniConfDaemonConn::do_get", "UniConfDaemonConn::do_set", "UniConfDaemonConn::do_remove", "UniConfDaemonConn::do_subtree", "UniConfDaemonConn::do_haschildren", "UniConfDaemonConn::deltacallback"]}, {"file": "uniconf/uniclientconn.cc", "symbols": ["UniClientConn::readcmd", "UniClientConn::writecmd"]}]}
{"id": "C57", "title": "A cache of a configuration shows what the configuration holds", "statement": "A UniCacheGen over another generator, once it has been refreshed, returns for every key what the inner generator holds, whatever is then set or removed through the cache or in the inner generator without it, and its children and iterators are those of the inner generator.", "quantifier": "every inner generator that behaves as a configuration and tells its changes, every content, every history of changes before and after the refresh", "why_tests_cant": "The copy must follow every history of changes on both ways.", "anchors": [{"file": "uniconf/unicachegen.cc", "symbols": ["UniCacheGen::refresh", "UniCacheGen::loadtree", "UniCacheGen::deltacallback", "UniCacheGen::set", "UniCacheGen::get"]}]}
{"id": "C58", "title": "A generator that remembers answers gives the right ones and asks once", "statement": "UniFastRegetGen returns for every key what the inner generator holds, whatever was asked before, and set or removed through it or without it; exists and haschildren are those of the inner generator too; and a key that was asked for once is never asked of the inner generator again.", "quantifier": "every inner generator that behaves as a configuration and tells its changes, every history of questions and changes", "why_tests_cant": "What it remembers depends on the whole history of questions and changes, and of keys above those asked for.", "anchors": [{"file": "uniconf/unifastregetgen.cc", "symbols": ["UniFastRegetGen::get", "UniFastRegetGen::gencallback", "UniFastRegetGen::exists", "UniFastRegetGen::haschildren"]}, {"file": "uniconf/unihashtree.cc", "symbols": ["UniHashTreeBase::_find"]}]}
{"id": "C59", "title": "Replicated configurations are kept the same", "statement": "A UniReplicateGen keeps several generators the same: when it is made, one is added, or one that could not be reached can be again, all that can be reached get all that they hold together, where they differ what the first of them holds; a value set or removed through it or in any one of them is set or removed in all that can be reached; and reading gives what they hold also if generators fail while it goes on, as long as one is left.", "quantifier": "every number of inner generators that behave as configurations and tell their changes, all contents, every history of use, of changes by others, and of generators failing and coming back, every number of failures during a read", "why_tests_cant": "What the copies hold depends on the whole history of failures and changes.", "anchors": [{"file": "uniconf/unireplicategen.cc", "symbols": ["UniReplicateGen::set", "UniReplicateGen::get", "UniReplicateGen::iterator", "UniReplicateGen::deltacallback", "UniReplicateGen::replicate", "UniReplicateGen::replicate_if_any_have_become_ok", "UniReplicateGen::first_ok", "UniReplicateGen::append", "UniReplicateGen::prepend"]}]}
{"id": "C60", "title": "Defaults answer for keys that are not there", "statement": "Reading a key through UniDefGen gives the value stored at the key itself, or else at the key with some of its names replaced by *, and null if there is none; among several, the one that has the key's own name at the first place where they differ. If that value is * and a positive number n, the answer is the name in the key that the n-th wildcard from the end stands for, and null if there are less. Existence, children and iterators are those of the place that answers. The root, and a path with a slash at its end, ask for an empty name. What is set is what is then read, unless it is such a reference. No byte is written outside the buffers.", "quantifier": "all keys of any length, all configurations, all inner generators that behave as a configuration", "why_tests_cant": "The number of places that may answer doubles with each name of the key.", "anchors": [{"file": "uniconf/unidefgen.cc", "symbols": ["UniDefGen::finddefault", "UniDefGen::replacewildcard", "UniDefGen::keymap", "UniDefGen::get", "UniDefGen::set"]}, {"file": "uniconf/unifiltergen.cc", "symbols": ["UniFilterGen::exists", "UniFilterGen::haschildren", "UniFilterGen::iterator"]}]}
{"id": "C61", "title": "Formatting a string", "statement": "WvString(format, args...) and everything built on it gives the format's text with each %s field replaced by its argument taken literally, padded to the field's width on the side the format says (blanks, or zeros after %0), cut to its precision, taking the next argument or, with $n, argument n; a null or missing argument shows as (nil); %c gives the byte with that code and %% a percent sign; and nothing is written past the end of the buffer allocated for the result.", "quantifier": "every list of format pieces (texts, fields of any width, precision, fill and argument number, characters, percent signs) and every list of arguments", "why_tests_cant": "The size of the buffer is computed by one pass over the format and used by another; that the two agree depends on each combination of width, precision and argument length, and the arguments may contain anything, percent signs included. Tests use a few formats.", "anchors": [{"file": "utils/wvstring.cc", "symbols": ["pparse", "WvFastString::do_format", "WvFastString::alloc", "WvFastString::setsize"]}, {"file": "include/wvstring.h", "symbols": ["WVSTRING_FORMAT_DECL", "WvFastString::WvFastString"]}]}
{"id": "C62", "title": "Strings are values", "statement": "WvString variables are values although copies share their memory: whatever a program makes, copies, assigns, takes the rest of, edits, appends and destroys, in any order and wherever the allocator puts things, each variable shows what it would if every string had its own memory, and no freed or foreign memory is read or written. Every buffer is freed when the last string that uses it is gone or changes, and copying a string, or the rest of one, allocates nothing.", "quantifier": "every program of string operations on any number of variables, every text, every placement of the buffers by the allocator and of the program's own texts", "why_tests_cant": "Whether an edit shows in another variable, or a buffer is freed too early or never, depends on the whole history of sharing; whether an assignment takes a text for a part of the string depends on addresses no test controls.", "anchors": [{"file": "include/wvstring.h", "symbols": ["WvFastString::WvFastString", "WvFastString::offset", "WvString::operator=", "WvString::edit", "WvString::append"]}, {"file": "utils/wvstring.cc", "symbols": ["WvFastString::link", "WvFastString::unlink", "WvString::copy_constructor", "WvString::operator=", "WvString::do_assign", "WvString::unique", "WvFastString::setsize", "WvString::append"]}]}
{"id": "C63", "title": "Keys are values", "statement": "UniConfKey variables are values although copies and parts of a key share its segments: whatever a program makes, copies, joins, takes parts of, pops, assigns, appends, prepends and destroys, in any order, each variable shows what it would if every key had its own segments, and no deleted or foreign memory is read or written. The segments are deleted when the last key that uses them is gone or changes, and copying a key, taking a part of it or assigning either makes no new ones.", "quantifier": "every program of key operations on any number of variables, every text and every index", "why_tests_cant": "Whether a change to one key shows in another, or its segments are deleted too early or never, depends on the whole history of sharing, and so does whether there is room in the array that an append writes to.", "anchors": [{"file": "include/uniconfkey.h", "symbols": ["UniConfKey::UniConfKey", "UniConfKey::~UniConfKey", "UniConfKey::operator=", "UniConfKey::Store", "UniConfKey::SegmentVector"]}, {"file": "uniconf/uniconfkey.cc", "symbols": ["UniConfKey::Store::Store", "UniConfKey::collapse", "UniConfKey::unique", "UniConfKey::append", "UniConfKey::prepend", "UniConfKey::pop", "UniConfKey::range"]}]}
{"id": "C64", "title": "File name patterns match what they say", "statement": "A WvGlob made of a pattern matches a string exactly if the pattern does as a whole: * stands for any characters but slashes, ? for one of them, [...] for one of a set and [!...] for one not in it (never a slash), {a,b} for any of the patterns between the commas, nested in any way, backslash makes the next character ordinary, and all other characters stand for themselves, also those special in regular expressions. A pattern is refused just if a set or brace is not closed, it ends in a backslash, or a set contains a slash.", "quantifier": "every pattern and every string", "why_tests_cant": "Patterns nest without bound and each character may be special to one of three syntaxes (pattern, set, regular expression).", "anchors": [{"file": "utils/wvglob.cc", "symbols": ["WvGlob::glob_to_regex", "WvGlob::set"]}, {"file": "include/wvglob.h", "symbols": ["WvGlob"]}]}
{"id": "C65", "title": "A WvCont is a coroutine", "statement": "Calling a WvCont runs its callback until it yields or returns, and gives back that value; the next call goes on where it yielded, and the yield gives back the argument of that call. This holds whatever the callbacks do: coroutines that call coroutines to any depth, that are left waiting and called later from somewhere else, that copy, create and destroy WvConts. When the last copy is destroyed while the coroutine waits in a yield, it is resumed once with NULL and isok() false, and runs to its end before the destructor returns; when it is destroyed while active, it finds out the next time control comes back to it. Calling an active one, or yielding when not ok, fails an assertion, and nothing else does. The data of a coroutine exist exactly while it has a copy or is active, and no two share a stack.", "quantifier": "every program of callbacks, every nesting of calls and every history of creation, copying and destruction", "why_tests_cant": "Control always goes by way of the top-level stack, and each level must find out whether it is the one to return; the depth of nesting is unbounded.", "anchors": [{"file": "utils/wvcont.cc", "symbols": ["WvCont::_call", "WvCont::yield", "WvCont::isok", "WvCont::~WvCont", "WvCont::bouncer"]}, {"file": "utils/wvtask.cc", "symbols": ["WvTaskMan::run", "WvTaskMan::yield", "WvTaskMan::start", "WvTask::recycle"]}]}
{"id": "C66", "title": "HTTP answers reach the requests they belong to", "statement": "Each request added to an HTTP connection is sent once, in order. Its output gets exactly what the server answered to it: version, status, headers in order, and the body, whether the length is given or the body is chunked, with no byte lost, added or taken from another answer. It is marked complete when and only when all of it has come. This does not depend on how the bytes are split into packets and reads, on how many requests are outstanding, on pipelining and its hidden tests, or on HEAD requests in between. Nothing asserts, and when the bytes keep arriving everything that was sent is completed. An answer that is cut off is reported as an error.", "quantifier": "every sequence of answers of a server, every splitting into packets and reads, every interleaving with new requests", "why_tests_cant": "The parser keeps its state over calls, and any byte may be the last of a packet; with pipelining one slip shifts every later answer.", "anchors": [{"file": "urlget/wvhttpstream.cc", "symbols": ["WvHttpStream::execute", "WvHttpStream::doneurl", "WvHttpStream::request_next", "WvHttpStream::close"]}, {"file": "urlget/wvhttppool.cc", "symbols": ["WvUrlStream::addurl"]}]}
{"id": "C67", "title": "The message bus routes messages and keeps names", "statement": "A DBus bus server gives a name to the connection that claimed it last, until the name is released or the connection has gone; no other client can take the unique name of a connection. A message for a name is delivered to its owner and nobody else, once and unchanged but for the sender, which is the true one; if there is no owner, the sender gets an error. A message without destination is delivered once to each connection, with the true sender. Each call of the bus itself is answered once, to the caller, with the number of the call. An answer sent to the sender of a call gets back to the caller whatever happens in between, as long as the caller is there. Nothing is sent to connections that have gone and no client can stop the bus.", "quantifier": "every sequence of connections, messages, broken connections and their removals", "why_tests_cant": "Names are claimed, taken over and lost in any order by any number of connections, and every later message depends on all of that.", "anchors": [{"file": "dbus/wvdbusserver.cc", "symbols": ["WvDBusServer::register_name", "WvDBusServer::unregister_name", "WvDBusServer::unregister_conn", "WvDBusServer::do_server_msg", "WvDBusServer::do_bridge_msg", "WvDBusServer::do_broadcast_msg", "WvDBusServer::do_gaveup_msg", "WvDBusServer::conn_closed", "WvDBusServer::new_connection_cb"]}, {"file": "dbus/wvdbusconn.cc", "symbols": ["WvDBusConn::filter_func", "WvDBusConn::init"]}]}
{"id": "C68", "title": "Every DBus request gets its answer, once", "statement": "A program that sends a message over a DBus connection with a function for the answer gets this function called exactly once: with the message that answers it, or with an error when the time is over, the request is cancelled or the connection is closed. It does not matter what else is sent, answered or open, or that functions send more requests and wait for their answers. Every other message that arrives goes to the filters in the order of their priorities until one handles it. Nothing the program does in its functions makes the connection use freed memory.", "quantifier": "every sequence of sends, arriving messages, returns of functions, time-outs and closing, with functions nested in any way", "why_tests_cant": "Functions are called from inside of the connection and may change the table of requests that it is working on.", "anchors": [{"file": "dbus/wvdbusconn.cc", "symbols": ["WvDBusConn::send", "WvDBusConn::add_pending", "WvDBusConn::cancel_pending", "WvDBusConn::expire_pending", "WvDBusConn::filter_func", "WvDBusConn::post_select", "WvDBusConn::close"]}]}
{"id": "C69", "title": "A URL is read into its parts and printed as the same URL", "statement": "The constructor of WvUrl reads the protocol, user, password, host, port and path of every URL of the known protocols, whatever of this is left out and whatever white space is around it. A URL that was read is printed as a text that is read as the same URL again. Texts that are no URL of a known protocol are refused, and no text makes the constructor look behind its end.", "quantifier": "every text, and every URL that can be written from parts that do not contain the characters that end them", "why_tests_cant": "The texts are not bounded, and every separator may be in any part.", "anchors": [{"file": "ipstreams/wvurl.cc", "symbols": ["WvUrl::WvUrl", "WvUrl::operator WvString", "get_default_port", "protocol_uses_slashes"]}, {"file": "include/wvurl.h", "symbols": ["WvUrl::isok"]}]}
{"id": "C70", "title": "A stream that encodes passes every byte through its chain once, in order", "statement": "A WvEncoderStream reads from and writes to another stream through two chains of encoders. What the user reads is what the read chain gives out for the bytes that the other stream gave; what the other stream gets is what the write chain gives out for the bytes that write() took: in order, with none lost, doubled or made up, however reads, writes, flushes, polls and errors are interleaved. After flush() everything that was written is below. At the end, and in close(), each chain is asked to finish after its last byte and what it then gives out is passed on as well.", "quantifier": "all chains of encoders, all answers of the stream below, all histories of calls", "why_tests_cant": "The interleavings of calls with the answers of the stream below and the behaviour of the encoders are not bounded.", "anchors": [{"file": "streams/wvencoderstream.cc", "symbols": ["WvEncoderStream::close", "WvEncoderStream::pull", "WvEncoderStream::push", "WvEncoderStream::uread", "WvEncoderStream::uwrite", "WvEncoderStream::finish_read", "WvEncoderStream::flush_internal", "WvEncoderStream::post_select"]}, {"file": "streams/wvstreamclone.cc", "symbols": ["WvStreamClone::close", "WvStreamClone::flush_internal", "WvStreamClone::nowrite"]}, {"file": "streams/wvstream.cc", "symbols": ["WvStream::read", "WvStream::write", "WvStream::flush_outbuf", "WvStream::close"]}]}
{"id": "C71", "title": "A configuration kept in a directory is the tree that was set, and only that directory is changed", "statement": "The fs: generator keeps each key of a configuration in a file below a directory. After any history of settings, get() of a key gives the value it was last set to, unless it or a key over it was set to NULL since; keys over others are there with an empty value; a key that is a folder, or is under a key with a value, can not be given a value and setting it changes nothing; the iterator gives each key below once, with its value. Keys with a part that is empty, . or .. have no value and are not set. Whatever is set, nothing outside of the directory is created, changed or removed.", "quantifier": "all file systems, directories, keys, values and histories of settings", "why_tests_cant": "Keys, values, file systems and histories are not bounded, and a key that leads out of the directory may be any.", "anchors": [{"file": "uniconf/unifilesystemgen.cc", "symbols": ["UniFileSystemGen::get", "UniFileSystemGen::set", "UniFileSystemGen::iterator", "key_safe"]}, {"file": "streams/wvfileutils.cc", "symbols": ["mkdirp", "rm_rf"]}, {"file": "utils/wvdiriter.cc", "symbols": ["WvDirIter::next", "WvDirIter::rewind"]}]}
{"id": "C72", "title": "A configuration file with sections holds what was set, also after it was saved and loaded", "statement": "In a WvConf, an entry of a section has the value that it was last set to, unless that was NULL or empty or the section was deleted since; case does not matter in names. get() also looks in the sections named by Inherits, one after the other, and ends if they form a circle; then in the global section; fuzzy_get() does so for a list of sections. Setting a value calls each callback for it once, with the old and the new value, if it changes it, and only then the file is to be saved. When a configuration is clean, loading its file gives the same sections and answers. When saving is stopped at any point, whoever loads the file is refused, or finds everything that was saved. A file that could not be loaded is not changed.", "quantifier": "all configuration files, histories of settings, deletions and saves, names, values, and points at which saving is stopped", "why_tests_cant": "Files, histories and chains of sections are not bounded, and saving may be stopped at any byte.", "anchors": [{"file": "configfile/wvconf.cc", "symbols": ["WvConf::get", "WvConf::fuzzy_get", "WvConf::set", "WvConf::delete_section", "WvConf::load_file", "WvConf::save", "WvConf::flush", "WvConf::run_callbacks"]}, {"file": "configfile/cfgsection.cc", "symbols": ["WvConfigSection::set", "WvConfigSection::quick_set", "WvConfigSection::dump"]}, {"file": "include/wvconf.h", "symbols": ["WvConf"]}]}
{"id": "C73", "title": "A stream over SSL sends what was written, once and in order, and nothing before the certificate is accepted", "statement": "For a WvSSLStream, whatever the SSL library and the stream below answer: what is given to SSL_write and taken by it is the beginning of what write() took, also what was written before the handshake; after SSL_write told to wait, the next call has the same bytes at the same place. While the stream is in order nothing that was taken is lost, and flushing sends it. What SSL_read gave is given by read() in order, and what is left of it makes the stream readable. With a callback for certificates, the stream is not connected, and nothing is sent or received, before a handshake with a valid certificate that the callback accepted.", "quantifier": "all histories of calls, amounts of data, and answers of the SSL library, of the stream below and of the callback", "why_tests_cant": "Histories, data and the places where the library tells to wait are not bounded.", "anchors": [{"file": "crypto/wvsslstream.cc", "symbols": ["WvSSLStream::uread", "WvSSLStream::uwrite", "WvSSLStream::close", "WvSSLStream::noread", "WvSSLStream::nowrite", "WvSSLStream::pre_select", "WvSSLStream::post_select", "WvSSLStream::setconnected"]}, {"file": "streams/wvstream.cc", "symbols": ["WvStream::read", "WvStream::write", "WvStream::flush_outbuf"]}, {"file": "streams/wvstreamclone.cc", "symbols": ["WvStreamClone::post_select"]}]}
{"id": "C74", "title": "Every log message reaches every receiver once, and a console shows it under its heading up to the level of its source", "statement": "What is written into a WvLog is heard once by every WvLogRcvBase there is, in the order they were made, or by a console if there is none, whatever was made and destroyed before, also in the child of a fork. Receivers that write into the log when they hear a message cannot make this go on for ever: the eighth message of such a chain is replaced by a warning and there is no ninth. A WvLogConsole shows the messages whose level is at most that of their source, as given by set_custom_levels for names that occur in the source, or the common one; each line that is not empty begins with source and level, messages of the same source and level go on the same line, control characters are shown in hexadecimal, and every line ends.", "quantifier": "all histories of receivers, logs and forks; all sequences of messages and bytes; all lists of rules; all reactions of receivers", "why_tests_cant": "Histories, texts, rules and what receivers do are not bounded.", "anchors": [{"file": "streams/wvlog.cc", "symbols": ["WvLog::uwrite", "WvLog::~WvLog", "WvLogRcvBase::WvLogRcvBase", "WvLogRcvBase::~WvLogRcvBase", "WvLogRcvBase::cleanup_on_fork", "WvLogRcv::log", "WvLogRcv::set_custom_levels", "WvLogRcv::_make_prefix", "WvLogConsole::_mid_line"]}, {"file": "include/wvlogrcv.h", "symbols": ["WvLogRcv::begin_line", "WvLogRcv::mid_line", "WvLogRcv::end_line"]}]}
{"id": "C75", "title": "Sizes, durations and long numbers are shown as what they are", "statement": "sizetoa, sizeitoa, sizektoa and sizekitoa show blocks * blocksize bytes: below 1000 (1024) as a count, otherwise as a number with one decimal that is at least 1.0 and below 1000 (1024), except that YB is the largest unit, and that is the exact number rounded once by the method asked for; 999.96 kB is 1.0 MB and not 1000.0 kB. secondstoa names the days, hours and minutes of a duration that are not zero, with ' and ' before the last, or the seconds if there is none. metriculate puts a space before every three digits from the end, never in front, for every number, and writes nothing outside its buffer.", "quantifier": "all numbers of blocks, sizes of blocks and rounding methods; all numbers of seconds; all 64-bit numbers", "why_tests_cant": "The numbers have 64 bits, and errors are at boundaries of units and rounding.", "anchors": [{"file": "utils/wvstrutils.cc", "symbols": ["sizetoa", "sizektoa", "sizeitoa", "sizekitoa", "_sizetoa", "_sizetoa_rounder", "secondstoa", "metriculate"]}]}
{"id": "C76", "title": "Helpers for text do what they say for every text and stay inside their strings", "statement": "strreplace replaces every occurrence of a text from the left; undupe leaves one of several equal characters in a row; beforestr and afterstr split at the first occurrence; substr gives the part asked for, as far as it is there; spacecat puts one separator between two texts; getdirname and getfilename split a path; depunctuate removes punctuation at the end; backslash_escape, strcount, lookup, terminate_string, trim_string, snip_string, strlwr, strupr, is_word, non_breaking and replace_char do what their documentation says; hexdump_buffer shows each byte at its offset; nice_hostname gives a name that begins and ends with a letter or digit, has only letters, digits, single hyphens and dots, and leaves such a name as it is; encode_hostname_as_DN lists the labels. None of them reads or writes outside of its strings or runs for ever.", "quantifier": "all texts, characters, positions and lengths", "why_tests_cant": "Errors are at ends and empty texts, and the texts are not bounded.", "anchors": [{"file": "utils/wvstrutils.cc", "symbols": ["strreplace", "undupe", "beforestr", "afterstr", "substr", "spacecat", "getdirname", "getfilename", "depunctuate", "backslash_escape", "strcount", "lookup", "terminate_string", "trim_string", "snip_string", "strlwr", "strupr", "is_word", "non_breaking", "replace_char", "hexdump_buffer"]}, {"file": "utils/wvstrutils-sock.cc", "symbols": ["nice_hostname", "encode_hostname_as_DN"]}]}
{"id": "C77", "title": "Alarms and timers go off when they should, and rates are kept", "statement": "An alarm rings once the milliseconds it was set to have passed, whatever the clock does meanwhile, and alarm_remaining says what is left of them; a negative number takes it away, and it is gone once the callback was called. A WvTimeStream ticks every msec milliseconds: never more often than the time allows, without drift and without losing ticks as long as they are seen in time, and a clock that is set back does not hold it up; the program sleeps until the next tick, not longer. A WvDailyEvent rings at moments that are spread evenly over the day, as often as was asked for, one of them at the hour that was asked for: never early, once each. WvRateAdjust puts out the samples it gets, in order, repeated or left out so that output and input are as the rates are, to less than a sample, over any number of calls.", "quantifier": "all periods, numbers of events and hours, all clocks that go forwards or are set back, all sequences of rounds of the main loop, all sequences of samples", "why_tests_cant": "The behaviour depends on when the program comes round and on what the clock does; tests run for seconds on one clock.", "anchors": [{"file": "streams/wvstream.cc", "symbols": ["WvStream::alarm", "WvStream::alarm_remaining", "WvStream::pre_select", "WvStream::post_select"]}, {"file": "streams/wvtimestream.cc", "symbols": ["WvTimeStream::set_timer", "WvTimeStream::pre_select", "WvTimeStream::post_select", "WvTimeStream::execute"]}, {"file": "streams/wvdailyevent.cc", "symbols": ["WvDailyEvent::next_event", "WvDailyEvent::pre_select", "WvDailyEvent::post_select", "WvDailyEvent::configure", "WvDailyEvent::set_num_per_day"]}, {"file": "utils/wvrateadjust.cc", "symbols": ["WvRateAdjust::_encode", "WvRateAdjust::init"]}]}
{"id": "C78", "title": "A directory iterator shows every file of a tree once", "statement": "WvDirIter shows every file under a directory once, in the order of the directories, what is in a directory right after the directory itself, without \".\" and \"..\" and names that are gone, and with the right names: the one in the directory, the one from where the program is, the one from where the iteration started. If it is not to recurse it shows what is in the directory only; if it is to skip mounts it goes into the directories that are on the device of the directory it starts with and not into others. After rewind it starts over. After up it goes on after the directory that it was in. When everything was shown, next returns false.", "quantifier": "all directory trees of any depth and width, with unreadable directories and names that are gone, on any devices; all points at which rewind or up are called", "why_tests_cant": "The trees are unbounded, and what goes wrong depends on where in the tree the iterator is and on what else is mounted.", "anchors": [{"file": "utils/wvdiriter.cc", "symbols": ["WvDirIter::WvDirIter", "WvDirIter::next", "WvDirIter::rewind"]}, {"file": "include/wvdiriter.h", "symbols": ["WvDirIter::up", "WvDirIter::depth", "WvDirEnt"]}]}
{"id": "C79", "title": "Copying and moving a part of a configuration", "statement": "src.copy(dst, force): afterwards everything at src and below is also at dst, with the same paths from there; a key that existed there already keeps its value unless force is given, and is overwritten if it is; no other key changes, apart from those that lead to dst, which are made if they are missing. The loop ends. src.move(dst) does the same, with what was at dst gone before, and everything at src and below gone afterwards. Neither key is to be below the other, if they are in the same root.", "quantifier": "all contents of one or two configurations, of any depth and width, in any generator that behaves as a configuration; all pairs of keys of which neither is below the other, or in different roots; with and without force", "why_tests_cant": "The configurations are unbounded, and the copy writes to the configuration it iterates over.", "anchors": [{"file": "uniconf/uniconf.cc", "symbols": ["UniConf::copy", "UniConf::move", "UniConf::RecursiveIter"]}, {"file": "include/uniconf.h", "symbols": ["UniConf::copy", "UniConf::move", "UniConf::remove"]}]}
{"id": "C80", "title": "Integers and switches in a configuration", "statement": "An integer that is stored with setmeint is what getmeint returns for the key. A text that begins with an integer as in C, after blanks, with a sign or none, decimal, or hexadecimal after 0x, or octal after 0, is that integer. The words true, yes, on and enabled are 1 and false, no, off and disabled are 0, in any case. For any other text, and for a key that does not exist, getmeint returns the default.", "quantifier": "all texts, all defaults, all integers, all keys, in any generator that behaves as a configuration", "why_tests_cant": "The texts are unbounded.", "anchors": [{"file": "uniconf/uniconfgen.cc", "symbols": ["UniConfGen::str2int"]}, {"file": "uniconf/uniconf.cc", "symbols": ["UniConf::getmeint", "UniConf::setmeint"]}, {"file": "include/uniconf.h", "symbols": ["UniConf::getmeint"]}]}
{"id": "C81", "title": "Sections and entries on top of a configuration tree", "statement": "Through the old interface of sections and entries on a configuration tree, get returns the value an entry of a section was last given, whether as a text, as an integer, through the section, or by setting it only if it had none, and the default if it was never given one or it or its section was removed since. fuzzy_get returns the value of the first of the given sections that has the entry or inherits it, and always ends. A request \"[section] entry = value\" is taken apart so, and what is wrong with it is told by a code. A changed configuration is not clean until it is flushed. Loading a file gives each place in the file its value and leaves the rest.", "quantifier": "all histories of calls, all names and values, any inheritance between sections including circles, all requests, any generator that behaves as a configuration", "why_tests_cant": "The histories, texts and inheritance chains are unbounded.", "anchors": [{"file": "uniconf/wvconfemu.cc", "symbols": ["WvConfEmu::get", "WvConfEmu::set", "WvConfEmu::setint", "WvConfEmu::maybeset", "WvConfEmu::delete_section", "WvConfEmu::fuzzy_get", "WvConfEmu::getraw", "WvConfEmu::setraw", "WvConfEmu::load_file", "WvConfEmu::isclean", "parse_wvconf_request", "WvConfigSectionEmu"]}, {"file": "include/wvconfemu.h", "symbols": ["WvConfEmu", "WvConfigSectionEmu"]}]}
{"id": "C82", "title": "Being told of changes through sections and entries", "statement": "A callback that was added for a section and an entry, either of which may be left open, is called exactly once for each place that it covers and whose value differs before and after a change, with the section, the entry and the value after the change; so a flag that is set by it tells whether something it covers has changed since. Who is told are those who asked and did not call it off since, each once.", "quantifier": "all histories of changes and of adding and removing callbacks, all keys and values", "why_tests_cant": "The histories and the trees that change at once are unbounded.", "anchors": [{"file": "uniconf/wvconfemu.cc", "symbols": ["WvConfEmu::notify", "WvConfEmu::add_callback", "WvConfEmu::del_callback", "WvConfEmu::add_setbool"]}, {"file": "include/wvconfemu.h", "symbols": ["WvConfEmu::CallbackInfo"]}]}
{"id": "C83", "title": "Unix-style permissions are as they were given", "statement": "After any calls that give paths an owner, a group, single permissions or modes (as chmod does), someone has a permission for a path exactly if the flag for them says so: the flag of the user if they are the owner, else of the group if they are in it, else of the world; owner, group and flag each come from the nearest path, at or above this one, to which one was given, by the last call that gave it, and without any it is no. A generator secured with them shows a value exactly to those who may read it.", "quantifier": "all histories of calls, all paths, names, modes and credentials", "why_tests_cant": "The histories and the depths are unbounded, and the permissions are kept in the same tree as paths of any name.", "anchors": [{"file": "uniconf/unipermgen.cc", "symbols": ["UniPermGen::setowner", "UniPermGen::setgroup", "UniPermGen::setperm", "UniPermGen::chmod", "UniPermGen::getperm", "UniPermGen::getowner", "UniPermGen::getgroup"]}, {"file": "uniconf/unisecuregen.cc", "symbols": ["UniSecureGen::findperm"]}]}
{"id": "C84", "title": "UUIDs as text", "statement": "A UUID that is printed and read again is the same; every text that writes one, in either case and with or without braces, is read as the one it writes; everything else is read as the null UUID.", "quantifier": "all UUIDs and all texts", "why_tests_cant": "There are 2^128 UUIDs and no bound on the texts.", "anchors": [{"file": "xplc-cxx/strtouuid.cc", "symbols": ["UuidFromString"]}, {"file": "xplc-cxx/uuidtostr.cc", "symbols": ["UuidToString"]}]}
{"id": "C85", "title": "The registry of components", "statement": "After any calls, the service manager asks its handlers in the order that the calls asked for and takes the first answer; a static handler has for each UUID the object that was added first since it was last removed; a category shows each component once, with its first string, and does not change in the hands of whoever asked for it; a name stands for the object that its parts name, step by step. Each reference that is taken is given back, except those that a holder still holds.", "quantifier": "all histories of calls, all UUIDs, objects, names and sets of monikers and factories", "why_tests_cant": "The order of handlers and the counts of references depend on the whole history; names nest without bound.", "anchors": [{"file": "xplc/servmgr.cc", "symbols": ["ServiceManager"]}, {"file": "xplc/statichandler.cc", "symbols": ["StaticServiceHandler"]}, {"file": "xplc/catmgr.cc", "symbols": ["CategoryManager"]}, {"file": "xplc/catiter.cc", "symbols": ["CategoryIterator"]}, {"file": "xplc/monikers.cc", "symbols": ["MonikerService"]}, {"file": "xplc/new.cc", "symbols": ["NewMoniker"]}]}
{"id": "C86", "title": "References and weak references", "statement": "As long as whoever calls holds what is called, nothing that was destroyed is used; an object is destroyed when its last reference goes; a weak reference gives the object until then and nothing afterwards. A destructor that takes and gives back references to its own object is not entered again. Pointers that hold references hold one each.", "quantifier": "all histories of calls by holders of references, all histories of pointers", "why_tests_cant": "Whether memory is used after it was freed depends on the whole history of references.", "anchors": [{"file": "include/xplc/utils.h", "symbols": ["IMPLEMENT_IOBJECT", "WeakRef"]}, {"file": "include/xplc/ptr.h", "symbols": ["xplc_ptr"]}]}
{"id": "C87", "title": "Lines of FTP listings", "statement": "ftpparse() never reads behind the end of a line, and the name and identifier it returns are parts of the line, whatever the server sends. A line in the formats EPLF, ls -l (with or without a group, with a time or a year, with links and NetWare permissions), MSDOS and VMS is read as what it says: name, kind, size and time. Dates are those of the Gregorian calendar, and a day without a year is that which is less than 350 days in the past and at most 15 in the future.", "quantifier": "all lines, all dates from the year 401 on, all current times from 1970 on", "why_tests_cant": "A listing comes from an unknown server; tests cover a few lines and a few dates, not leap years, centuries and every place where a line may end.", "anchors": [{"file": "urlget/ftpparse.cc", "symbols": ["ftpparse", "totai", "guesstai", "getlong", "getmonth"]}, {"file": "include/ftpparse.h", "symbols": ["struct ftpparse"]}]}
{"id": "C88", "title": "Generators that reconnect", "statement": "While its inner generator is all right, a UniRetryGen answers and does what that generator does. When it stops being all right it is given back, once, and no attempt to make another is made before the retry interval has passed; until then only the root exists, with an empty value. When it is time a call makes one attempt, and if it succeeds the callback is called once and the call goes to the new generator. In every history each generator that was made is given back exactly once, and there are never more failures than intervals.", "quantifier": "all inner generators, all histories of calls and of changes of the inner generator, all times with a clock that does not go back, all retry intervals", "why_tests_cant": "Reconnection depends on when the inner generator fails and on the times of the calls; tests fix a handful of schedules.", "anchors": [{"file": "uniconf/uniretrygen.cc", "symbols": ["UniRetryGen::maybe_reconnect", "UniRetryGen::maybe_disconnect", "UniRetryGen::get", "UniRetryGen::isok"]}, {"file": "uniconf/unifiltergen.cc", "symbols": ["UniFilterGen::setinner", "UniFilterGen::~UniFilterGen"]}, {"file": "include/uniretrygen.h", "symbols": ["UniRetryGen"]}]}
{"id": "C89", "title": "Arguments of D-Bus messages", "statement": "What append(), variant_start/end, struct_start/end, array_start/end and varray_start/end add to a WvDBusMsg, however it is nested, is what an iterator then finds, in order. An end without a beginning stops the program before the message is changed. get_int() and get_uint() give the number of any integer argument, also within variants and as decimal text; get_str() gives its decimal text, the text itself, or the texts of the parts in brackets; get_all() gives the texts of all arguments, and after the first twenty only dots.", "quantifier": "all arguments of all types and nestings, all sequences of calls", "why_tests_cant": "Nesting and the widths and signs of seven integer types combine; tests use small positive numbers and one level.", "anchors": [{"file": "dbus/wvdbusmsg.cc", "symbols": ["WvDBusMsg::append", "WvDBusMsg::variant_start", "WvDBusMsg::variant_end", "WvDBusMsg::varray_end", "WvDBusMsg::Iter::next", "WvDBusMsg::Iter::get_str", "WvDBusMsg::Iter::get_int", "WvDBusMsg::Iter::get_uint", "WvDBusMsg::Iter::get_all"]}, {"file": "include/wvdbusmsg.h", "symbols": ["WvDBusMsg::Iter"]}]}
{"id": "C90", "title": "Options of a command line", "statement": "When options with different names are declared to a WvArgs, process() lets every use of one, by its short or its long name, do what it was declared for, in order: set, reset or flip a flag, store a number that fits, store or append a text, call the callback. Unknown options, missing or superfluous arguments, texts that are not numbers and a wrong number of other arguments are errors, which end the program or, if it asked for that, make process() return false. The other arguments are handed over in order. A removed option is as if it had not been declared.", "quantifier": "all lists of declared options and arguments, all command lines, all values of the variables", "why_tests_cant": "Options combine freely, and the tables are kept in three places (list, dictionary, array for argp) which must agree for every order of declarations, removals and calls.", "anchors": [{"file": "utils/wvargs.cc", "symbols": ["WvArgsData::add", "WvArgsData::remove", "WvArgsData::argp_build", "WvArgsData::parser", "WvArgs::process", "WvArgsIntOption::process", "WvArgs::add_required_arg"]}, {"file": "include/wvargs.h", "symbols": ["WvArgs"]}]}
{"id": "C91", "title": "Locks of devices", "statement": "Of all processes that use WvLockDev for a device, at most one has the lock at any time, however their calls are interleaved and wherever processes die. A lock whose owner is dead can be had; one whose owner lives cannot. A process that has the lock may lock again, and gives the lock back with its last unlock() or when the object goes away. The lock of a device is that of the last part of its name.", "quantifier": "all numbers of processes, all schedules of their system calls, all points at which they die, all lock files there may be at first", "why_tests_cant": "A race needs a particular interleaving of system calls of two or three processes; tests run one schedule.", "anchors": [{"file": "streams/wvlockdev.cc", "symbols": ["WvLockDev::WvLockDev", "WvLockDev::lock", "WvLockDev::unlock", "WvLockDev::~WvLockDev"]}, {"file": "include/wvlockdev.h", "symbols": ["WvLockDev"]}]}
{"id": "C92", "title": "Addresses shared by several aliasers", "statement": "Several WvIPAliaser objects may ask for addresses. Each has the addresses add()ed since its last start_edit(), except those the computer has anyway. An address that some object has is on exactly one alias interface all the time; when no object has it any more, the interface goes away with the next done_edit() or destruction, and not before. add() returns true exactly if it made an interface, done_edit() exactly if it took one away.", "quantifier": "all histories of calls by any number of objects, all addresses", "why_tests_cant": "Aliases are counted over all objects, which may start, change and go away in any order; a wrong count shows only in particular histories.", "anchors": [{"file": "linuxstreams/wvipaliaser.cc", "symbols": ["WvIPAliaser::start_edit", "WvIPAliaser::add", "WvIPAliaser::done_edit", "WvIPAliaser::Alias::Alias", "WvIPAliaser::Alias::~Alias", "WvIPAliaser::~WvIPAliaser"]}, {"file": "include/wvipaliaser.h", "symbols": ["WvIPAliaser"]}]}
{"id": "C93", "title": "The first error sticks", "statement": "An object that remembers errors (WvErrorBase, WvError) keeps the first error it is told since it was last reset or assigned, whatever it is told afterwards and in whatever way: as a number, as a text, as both, or as the error of another object, with or without a prefix. isok(), geterr() and errstr() are those of that error; a copy has the error of the original. The onerror callback is called once for each first error.", "quantifier": "all histories of calls on any number of objects, all numbers, texts and prefixes", "why_tests_cant": "Errors are told in several ways that share state; whether a later one leaks into an earlier one depends on the order of calls, also over several objects.", "anchors": [{"file": "utils/wverror.cc", "symbols": ["WvErrorBase::errstr", "WvErrorBase::seterr", "WvErrorBase::seterr_both", "WvErrorBase::strerror"]}, {"file": "include/wverror.h", "symbols": ["WvErrorBase::noerr", "WvErrorBase::operator=", "WvError::set"]}]}
{"id": "C94", "title": "Sorted iterators visit everything in order", "statement": "A loop over a sorter of a list or hash table visits, after rewind(), every element the container has at that time, each as often as it is in there, in the order of the comparison function; afterwards it ends. The container may change afterwards. Comparison functions may use sorters themselves, to any depth, without disturbing the sorters outside. A container whose length changes while it is copied does no harm.", "quantifier": "all containers, all consistent comparison functions, all depths of nested sorting, all correct qsort procedures", "why_tests_cant": "The comparison function is passed through a static variable; whether nested sorting restores it, and whether the array has the right bounds, matters for all contents and nestings.", "anchors": [{"file": "include/wvsorter.h", "symbols": ["WvSorterBase::rewind", "WvSorterBase::next", "WvSorterBase::cur", "WvSorter::ptr"]}, {"file": "utils/wvsorter.cc", "symbols": ["WvSorterBase::magic_compare", "WvSorterBase::actual_compare"]}]}
{"id": "C95", "title": "D-Bus messages over a byte stream", "statement": "A WvDBusConn delivers the messages sent to it in order, each exactly once, whatever pieces their bytes arrive in: at any time those that lie completely in what was read so far. As long as there are bytes, reading goes on. Messages sent before the connection is authorized are kept and written in order with those sent afterwards; nothing is written before.", "quantifier": "all lists of messages, all cuttings of their bytes, all amounts that reads and writes handle, all moments of authorization", "why_tests_cant": "Where the pieces end is up to the network; errors show only when a piece ends at a particular place in a header or message.", "anchors": [{"file": "dbus/wvdbusmarshal.cc", "symbols": ["wvdbus_message_length", "WvDBusMsg::demarshal", "WvDBusMsg::demarshal_bytes_needed", "WvDBusMsg::marshal"]}, {"file": "dbus/wvdbusconn.cc", "symbols": ["WvDBusConn::post_select", "WvDBusConn::send", "WvDBusConn::try_auth"]}]}
{"id": "C96", "title": "Stopping subprocesses leaves nothing behind", "statement": "After WvSubProc::stop() nothing of what the object ever started is left: neither processes nor their descendants, nor dead ones that were not waited for, even if the main process ended long before its descendants and if they ignore SIGTERM. stop() returns, at the latest after the SIGKILL. running is false only if nothing is left. Signals go to these processes only. No assertion fails.", "quantifier": "all histories of start, stop, wait, kill, all behaviours of processes between any two system calls of wait", "why_tests_cant": "Processes end and fork at any time; whether one is missed depends on the moment in which the main process dies in between the system calls.", "anchors": [{"file": "utils/wvsubproc.cc", "symbols": ["WvSubProc::start_again", "WvSubProc::fork", "WvSubProc::kill", "WvSubProc::kill_primary", "WvSubProc::stop", "WvSubProc::wait"]}, {"file": "include/wvsubproc.h", "symbols": ["WvSubProc"]}]}
{"id": "C97", "title": "The life of a daemon", "statement": "WvDaemon calls its callbacks in order: load once, then start, run as often as needed, stop, and again, then unload once, whatever die(), restart() and signals arrive at whatever times. run is not called once exit or restart is wanted; a restart stops and starts; die() stops, unloads and gives the status asked for; die() is never forgotten. SIGTERM means die, SIGHUP means restart. Of several daemons with one pid file only one runs.", "quantifier": "all sequences of requests and signals during any callbacks, all contents of the pid file and other processes", "why_tests_cant": "Signals can arrive during any callback, and daemons can be started at any time.", "anchors": [{"file": "streams/wvdaemon.cc", "symbols": ["WvDaemon::_run", "WvDaemon::do_load", "WvDaemon::do_unload", "sighup_handler", "sigterm_handler", "sigquit_handler"]}, {"file": "include/wvdaemon.h", "symbols": ["WvDaemon::die", "WvDaemon::restart", "WvDaemon::should_run"]}]}
{"id": "C98", "title": "Compression round trip", "statement": "What goes through a compressing WvGzipEncoder, in pieces of any size and with any flushes, and is then finished, comes out of a decompressing one exactly, whatever pieces it is fed in; the end of the data is noticed, and what follows it stays in the input. encode takes from the input only what zlib took and writes what zlib wrote, never more than the limit; nothing is lost between two calls. Missing or cut off data is reported.", "quantifier": "all inputs, all ways to cut them into pieces on both sides, all flushes, all layouts of the buffers, all behaviours of zlib within its contract", "why_tests_cant": "zlib may stop anywhere for lack of room or input; bytes are lost if any boundary between pieces is treated wrongly.", "anchors": [{"file": "utils/wvgzip.cc", "symbols": ["WvGzipEncoder::_encode", "WvGzipEncoder::_finish", "WvGzipEncoder::prepare", "WvGzipEncoder::process", "WvGzipEncoder::_reset"]}, {"file": "include/wvgzip.h", "symbols": ["WvGzipEncoder"]}, {"file": "utils/wvencoder.cc", "symbols": ["WvEncoder::encode", "WvEncoder::finish"]}]}
{"id": "C99", "title": "Log files", "statement": "What is logged with WvLogFile stays, whole and findable, for keep_for days in a file with the date of the day, whatever is logged and removed meanwhile. A new file is begun when the day changes or the file is over 100 MB, under a name that is not in use; with allow_append off no older file is changed. filename.current leads to the newest file, and is never removed if it is not a link. Only log files that are old enough are removed.", "quantifier": "all histories of messages with all times that do not go back, all contents of the directory, all times at which old files are removed", "why_tests_cant": "Rotation and removal depend on the clock, on what lies in the directory and on a child process that works at the same time.", "anchors": [{"file": "streams/wvlogfile.cc", "symbols": ["WvLogFile::start_log", "WvLogFile::_make_prefix", "trim_old_logs", "WvLogFileBase::_mid_line"]}, {"file": "include/wvlogfile.h", "symbols": ["WvLogFile"]}]}
{"id": "C100", "title": "Certificates", "statement": "A certificate is accepted against an authority exactly if it is within its dates, was signed with the authority's key and names it as the issuer, which may issue; without an authority only the dates count. An SSL stream with a validation callback connects only to a peer with a certificate within its dates that the callback accepts. What an authority makes of a request is accepted against it for ten years from then; what is no authority makes nothing that is accepted.", "quantifier": "all certificates, authorities, times, requests, validation callbacks and random numbers", "why_tests_cant": "Whether a forged or badly timed certificate is accepted depends on certificates nobody has thought of; tests have a few.", "anchors": [{"file": "crypto/wvx509.cc", "symbols": ["WvX509::validate", "WvX509::signedbyca", "WvX509::issuedbyca"]}, {"file": "crypto/wvx509mgr.cc", "symbols": ["WvX509Mgr::isok", "WvX509Mgr::test", "WvX509Mgr::signcert", "WvX509Mgr::signreq", "WvX509Mgr::create_selfissued"]}, {"file": "crypto/wvsslstream.cc", "symbols": ["WvSSLStream::post_select"]}]}
{"id": "C101", "title": "Revocation", "statement": "A certificate is revoked by a list exactly if a certificate with its number was added. A list is valid for an authority exactly if it is in its name, was signed with its key after the last change, has not expired and has no critical extension. An OCSP response says good exactly if its first statement about that certificate says so and is current.", "quantifier": "all lists, all histories of adding and signing, all responses, all times", "why_tests_cant": "A revoked certificate must not be taken for a good one in any list or response; tests have one list.", "anchors": [{"file": "crypto/wvcrl.cc", "symbols": ["WvCRL::isrevoked", "WvCRL::addcert", "WvCRL::validate", "WvCRL::has_critical_extensions", "serial_to_int"]}, {"file": "crypto/wvx509mgr.cc", "symbols": ["WvX509Mgr::signcrl"]}, {"file": "crypto/wvocsp.cc", "symbols": ["WvOCSPResp::get_status"]}]}
{"id": "C102", "title": "Looking up names", "statement": "findaddr gives exactly the addresses the last lookup of that name found, in order, for five minutes after it was started, and \"not found\" for one minute; until then the name is not looked up again unless it was cleared, and after that it is. It gives up only if a limit was given, and not when post_select says the name is ready. Every process it starts is waited for exactly once.", "quantifier": "all sequences of calls for all names, all times, all orders in which processes write and end, all answers", "why_tests_cant": "Which lookup an answer comes from depends on the whole history of calls and on when processes end; tests ask for one or two names.", "anchors": [{"file": "ipstreams/wvresolver.cc", "symbols": ["WvResolver::findaddr", "WvResolver::clearhost", "WvResolver::post_select", "namelookup", "WvResolverHost::~WvResolverHost"]}, {"file": "include/wvresolver.h", "symbols": ["WvResolver"]}]}
{"id": "C103", "title": "The debugger and its server", "statement": "However commands are added, run and debugger instances come and go: the data of a command in an instance are made at most once, every use gets exactly these, and they are cleaned up once, before the instance goes and never used after. The first command added under a name stays; run and foreach of unknown names are refused; help lists the names in order. The server answers each line with results and then exactly one OK or ERROR, OK exactly if the command ran without error, and a client gets each message as it was sent. Nobody runs a command without having been authenticated.", "quantifier": "all sequences of adding, running, making and destroying instances; all lines, commands, results", "why_tests_cant": "Which data a command gets depends on the order in which commands and instances were made and used; tests use one instance.", "anchors": [{"file": "utils/wvstreamsdebugger.cc", "symbols": ["WvStreamsDebugger::run", "WvStreamsDebugger::add_command", "WvStreamsDebugger::foreach", "WvStreamsDebugger::~WvStreamsDebugger"]}, {"file": "ipstreams/wvstreamsdebuggerserver.cc", "symbols": ["WvStreamsDebuggerServer::ready_cb", "WvStreamsDebuggerServer::tcp_listener_cb", "WvStreamsDebuggerServer::unix_listener_cb"]}]}
{"id": "C104", "title": "Outgoing TCP connections", "statement": "However the resolver, the system and select answer, and whenever: what a user writes to a TCP connection, also while the name is looked up or the connection is made, is sent in order, nothing missing or twice, and nothing before the connection is made; as long as the connection is ok the rest is still waiting. The error is the first failure. It connects only to the address and port in the text, or the first address that the resolver finds. Each socket that was opened is closed by the time the object is gone, and a closed connection is not ok.", "quantifier": "all sequences of writes, reads, closes and turns of select; all answers of the resolver and of the system; all texts and ports", "why_tests_cant": "The order in which the lookup, the connection and the writes succeed or fail is up to the network; tests see the fast case on the local machine.", "anchors": [{"file": "ipstreams/wvtcp.cc", "symbols": ["WvTCPConn::WvTCPConn", "WvTCPConn::do_connect", "WvTCPConn::check_resolver", "WvTCPConn::post_select", "WvTCPConn::isok", "WvTCPConn::uwrite", "WvTCPConn::uread"]}, {"file": "include/wvtcp.h", "symbols": ["WvTCPConn"]}, {"file": "streams/wvfdstream.cc", "symbols": ["WvFdStream::close", "WvFdStream::uwrite"]}]}
{"id": "C105", "title": "Datagram sockets", "statement": "However the system takes and refuses datagrams, and whenever: each write to a Unix datagram socket is a datagram of its own, sent once and in order, or still waiting; while some wait, the socket tries again within two seconds. Each write to a UDP socket is one datagram to the peer that was set or heard of last; bytes are sent in order and none twice; errors of the network do not close it.", "quantifier": "all sequences of writes, reads, turns of select, flushes and closes; all answers of the system; all peers", "why_tests_cant": "Whether the system refuses a datagram depends on the other side and its queue; tests never fill it.", "anchors": [{"file": "ipstreams/wvunixdgsocket.cc", "symbols": ["WvUnixDGSocket::uwrite", "WvUnixDGSocket::pre_select", "WvUnixDGSocket::post_select"]}, {"file": "ipstreams/wvudp.cc", "symbols": ["WvUDPStream::uwrite", "WvUDPStream::uread", "WvUDPStream::src"]}, {"file": "streams/wvstream.cc", "symbols": ["WvStream::write", "WvStream::flush_outbuf"]}]}
{"id": "C106", "title": "Firewall rules", "statement": "Any number of firewall objects share the rules of the kernel. Whatever they add and delete, once all have been cleared (or destroyed) no rule of theirs is left behind. While they only add and are cleared, and none has the same forward twice, the kernel has exactly the rules from before and those of the objects, each as often as it was added: clearing one takes away no rule of another. Deleting takes one of each line of what the object has, and nothing else. With the switch off no rule is ever changed.", "quantifier": "all sequences of adding, deleting and clearing by any number of objects; all ports, addresses, forwards, redirections, ranges and protocols; all rules that are there before", "why_tests_cant": "Tests run without the right to change the firewall, with the switch off, and with one object.", "anchors": [{"file": "linuxstreams/wvipfirewall.cc", "symbols": ["WvIPFirewall::add_port", "WvIPFirewall::del_port", "WvIPFirewall::del_forward", "WvIPFirewall::forward_command", "WvIPFirewall::zap"]}, {"file": "include/wvipfirewall.h", "symbols": ["WvIPFirewall"]}]}
{"id": "C107", "title": "Routes", "statement": "Setting the kernel's routes to a list makes them exactly those of the list, apart from manual ones (metric 99), which stay; a route that was there and is wanted is there at every moment in between; doing it again does nothing. Reading the routes gives for each line of the kernel's file, and of the ip command, the route it stands for. Finding a route gives one whose network has the address, if there is one.", "quantifier": "all routes of the kernel in all tables; all lists of routes; all moments between two commands; all lines with any spacing; all addresses", "why_tests_cant": "The routes of a machine cannot be changed by tests, and which commands are run depends on all routes that are there.", "anchors": [{"file": "linuxstreams/wviproute.cc", "symbols": ["WvIPRouteList::get_kernel", "WvIPRouteList::set_kernel", "WvIPRouteList::find", "WvIPRoute::operator==", "realtable"]}, {"file": "linuxstreams/wvinterface.cc", "symbols": ["WvInterface::addroute", "WvInterface::really_addroute", "WvInterface::delroute"]}]}
{"id": "C108", "title": "FTP client", "statement": "Whatever a server says, the client only sends commands that the protocol allows at that point: the name and password first, then binary mode, and only commands about files that were asked for; a URL cannot smuggle in another command. Requests come to their end in the order in which they were made, each at most once, and data is only passed on for the first that has not ended. A file that is fetched arrives with exactly the bytes of the data connection, in order; a listing with each of its lines once; what is stored is what the source had. The address in the answer to PASV is the one that is dialled.", "quantifier": "all answers of the server, all cuttings of the data, all sequences of requests, all users, passwords and paths", "why_tests_cant": "A server can answer anything at any point; tests talk to one server.", "anchors": [{"file": "urlget/wvftpstream.cc", "symbols": ["WvFtpStream::execute", "WvFtpStream::parse_pasv_response", "WvFtpStream::get_important_line", "WvFtpStream::doneurl", "WvFtpStream::request_next", "WvFtpStream::close"]}, {"file": "urlget/wvhttppool.cc", "symbols": ["WvUrlStream::addurl", "WvUrlStream::delurl"]}, {"file": "include/wvhttppool.h", "symbols": ["WvUrlStream"]}]}
{"id": "C109", "title": "URL pool", "statement": "Whatever the servers, the connections and the name service do: a connection of the pool only has requests that the pool still has, each given to one connection only and once, so nothing looks at a request that is gone. There is never more than one connection to an address and port for a user. The end of a request is told at most once, and a request is only dropped when its end was told: when the pool is idle, all have ended. A request whose connection was lost before it ended is tried again, and one whose address is known is given to an open connection to that address, port and user. It is never served as somebody else or over another protocol than it asks for.", "quantifier": "all sequences of requests, answers of the name service, ends and losses of connections, in any order", "why_tests_cant": "Losses and answers come at any time; tests see a few orders.", "anchors": [{"file": "urlget/wvhttppool.cc", "symbols": ["WvHttpPool::addurl", "WvHttpPool::post_select", "WvHttpPool::execute", "WvHttpPool::unconnect", "WvUrlRequest::done", "WvUrlStream::delurl"]}, {"file": "include/wvhttppool.h", "symbols": ["WvHttpPool", "WvUrlRequest", "WvUrlStream::Target"]}, {"file": "ipstreams/wvurl.cc", "symbols": ["WvUrl::resolve"]}]}
{"id": "C110", "title": "A part of a configuration as a configuration of its own", "statement": "A generator made of a handle of a configuration shows exactly the part below the handle, and what is set through it is set there; nothing outside of the handle can be read or changed through it. Its iterators show what is below a key, by the names it can be read with. Notifications of changes below the handle are passed on with the right key, others are not. The moniker auto: takes for an application the moniker at the longest part of its name that has one, and below it the rest of the name.", "quantifier": "all configurations, handles, keys, sequences of calls and notifications; all application names", "why_tests_cant": "Keys, case and slashes combine without bound; tests use a few trees.", "anchors": [{"file": "uniconf/uniunwrapgen.cc", "symbols": ["UniUnwrapGen::_sub", "UniUnwrapGen::set", "UniUnwrapGen::setv", "UniUnwrapGen::gencallback", "UniUnwrapGen::Iter", "UniUnwrapGen::RecursiveIter"]}, {"file": "include/uniunwrapgen.h", "symbols": ["UniUnwrapGen"]}, {"file": "uniconf/uniautogen.cc", "symbols": ["creator"]}]}
{"id": "C111", "title": "What a child process has", "statement": "A child started with a pipe has as its standard input, output and errors the pipe, nothing, or the descriptor that was asked for, and these block and stay open; of its other descriptors it has just those of the parent that are not to be closed, so that the pipe ends when the child does. The parent has its own end of the pipe, which does not block and which later children do not get, and else what it had. Files named for a command are its standard ones whatever descriptors are free, and nothing else changes. However often the result of a command is asked for it runs once. The environment of a child is the parent's but for the variables that were given: the last one counts, an empty one is removed, and the paths of the dynamic linker are put in front of the parent's.", "quantifier": "all descriptor tables, wishes, descriptors the kernel gives, lists of environment changes and numbers of calls", "why_tests_cant": "The tables and the numbers that the kernel gives are not bounded; tests start with the same few descriptors.", "anchors": [{"file": "streams/wvpipe.cc", "symbols": ["WvPipe::setup"]}, {"file": "utils/wvfork.cc", "symbols": ["wvfork_start"]}, {"file": "utils/wvsystem.cc", "symbols": ["fd_open", "WvSystem::fork", "WvSystem::go"]}, {"file": "utils/wvsubproc.cc", "symbols": ["WvSubProc::fork"]}]}
{"id": "C112", "title": "Matrices", "statement": "A matrix has the entries it was made with, row by row, or zeros. Writing an entry changes just that one. A copy, or a matrix to which another was assigned, has the same entries. The sum of matrices of one size and the product of matrices of fitting sizes have the entries that mathematics gives, as long as an int can hold what is computed; for other sizes the results are the second summand and a matrix of zeros.", "quantifier": "all sizes, entries and matrices", "why_tests_cant": "Sizes are not bounded, and reading outside of the memory often goes unnoticed in tests.", "anchors": [{"file": "utils/wvmatrix.cc", "symbols": ["WvMatrix::WvMatrix", "WvMatrix::operator=", "WvMatrix::operator+", "WvMatrix::operator*"]}, {"file": "include/wvmatrix.h", "symbols": ["WvMatrix::operator()"]}]}
{"id": "C113", "title": "Lists of callbacks and delayed callbacks", "statement": "Calling a list of callbacks calls each of them once; if they add or remove others meanwhile, each is called at most once, those that were there and that nobody removed are called, and only those that were there or were added. When a delayed callback is called, its function is not run at once but in the next round of the main loop, with the arguments of the last call and once, whatever the functions call, make or destroy, and even if the delayed callback was destroyed since.", "quantifier": "all lists, all that callbacks may add or remove, and all histories of calls, copies, destructions and rounds of the main loop", "why_tests_cant": "Callbacks that change the list while it is called, and functions that call other delayed callbacks, give unboundedly many histories.", "anchors": [{"file": "include/wvcallbacklist.h", "symbols": ["WvCallbackList::operator()", "WvCallbackList::add", "WvCallbackList::del"]}, {"file": "include/wvdelayedcallback.h", "symbols": ["WvDelayedCallback::operator()"]}, {"file": "streams/wvistreamlist.cc", "symbols": ["WvIStreamList::post_select", "WvIStreamList::execute"]}]}
{"id": "C114", "title": "The words of a line", "statement": "A WvProtoStream splits each line it reads into the words between spaces, tabs, carriage returns and newlines: tokens come in the order of the words, and all of them; what token_remaining gives after some of them is what comes after the last one taken, without white space at its ends. The state machine is called for each line that has words, in order, with the first word, and then finds the other words of this line and nothing of other lines. tokanal finds the first text in its table that is the token.", "quantifier": "all lines, all numbers of tokens taken, all tables and all state machines", "why_tests_cant": "Lines and the white space in them are unbounded, as is what a state machine leaves in the buffer.", "anchors": [{"file": "streams/wvprotostream.cc", "symbols": ["WvProtoStream::next_token", "WvProtoStream::tokenize", "WvProtoStream::token_remaining", "WvProtoStream::tokline", "WvProtoStream::tokanal", "WvProtoStream::execute"]}, {"file": "utils/wvbuffer.cc", "symbols": ["WvBufBase<unsigned char>::_match"]}]}
{"id": "C115", "title": "The system log", "statement": "A WvSyslog sends every line of the messages that reach its level to the system log: once, in order, when the line ends or at the latest when the WvSyslog is destroyed, with unprintable characters shown in hex, with the source and level in front if that was asked for, and with the priority that belongs to the level of the message. Lines without text are left out; messages of one source and level that follow each other go on the same line. Levels above Debug are not sent.", "quantifier": "all sequences of messages, of any sources, levels and texts, all level settings", "why_tests_cant": "How messages are cut into lines depends on everything logged before.", "anchors": [{"file": "streams/wvsyslog.cc", "symbols": ["WvSyslog::_begin_line", "WvSyslog::_mid_line", "WvSyslog::_end_line"]}, {"file": "streams/wvlog.cc", "symbols": ["WvLogRcv::log"]}, {"file": "include/wvlogrcv.h", "symbols": ["WvLogRcv::end_line"]}]}
{"id": "C116", "title": "The cache of strings", "statement": "A string got from a WvStringCache has the text asked for, and behaves like any other string: editing or destroying any of them, cleaning the cache, and making and destroying caches never changes another one. Strings with the same text that came from a cache share their memory, as long as there has been a cache since. Cleaning keeps what the program still has and removes from the cache what it has not.", "quantifier": "all histories of making and destroying caches, getting, copying, editing and destroying strings, and cleaning", "why_tests_cant": "Whether strings share memory, and whether an edit of one is seen in another, depends on everything done with all strings before.", "anchors": [{"file": "utils/wvstringcache.cc", "symbols": ["WvStringCache::WvStringCache", "WvStringCache::~WvStringCache", "WvStringCache::get", "WvStringCache::clean"]}, {"file": "utils/wvstring.cc", "symbols": ["WvString::unique", "WvString::is_unique"]}]}
{"id": "C117", "title": "Sets of characters", "statement": "A character is in a WvStringMask exactly if the last operation on the mask that named it or emptied the mask put it there. The mask of a string has the characters of the string and no others. first() is the first character put into the mask.", "quantifier": "all characters, all strings, all sequences of operations", "why_tests_cant": "The answers depend on all operations since the mask was made.", "anchors": [{"file": "utils/wvstringmask.cc", "symbols": ["WvStringMask::WvStringMask", "WvStringMask::operator[]", "WvStringMask::first", "WvStringMask::zap", "WvStringMask::set"]}]}
{"id": "C118", "title": "The descriptors of streams and files", "statement": "Whatever is done with a WvFdStream or WvFile - reading, writing, ending either direction, closing, errors, opening further files - and whatever the system answers, each descriptor given to it is closed exactly once, when it is not used any more or at the latest when the stream is destroyed, and never used after that. A file that is opened is ok and works in the directions its mode says; the system is not asked to wait for others. A stream whose both directions are ended, with nothing left in its buffers, closes itself.", "quantifier": "all histories of operations on a stream, all answers of the system, all modes", "why_tests_cant": "Which descriptor is closed when depends on the order in which the directions end, on what is in the buffers and on errors at any time.", "anchors": [{"file": "streams/wvfdstream.cc", "symbols": ["WvFdStream::close", "WvFdStream::isok", "WvFdStream::uread", "WvFdStream::uwrite", "WvFdStream::maybe_autoclose", "WvFdStream::pre_select"]}, {"file": "streams/wvfile.cc", "symbols": ["WvFile::open", "WvFile::pre_select"]}, {"file": "streams/wvstream.cc", "symbols": ["WvStream::close", "WvStream::flush_outbuf", "WvStream::seterr", "WvStream::maybe_autoclose", "WvStream::setclosecallback"]}]}
{"id": "C119", "title": "Digests", "statement": "Whatever sequence of encode, flush, finish and reset is called on a digest (MD5, SHA-1, HMAC, CRC-32, Adler-32), and in whatever pieces the bytes come, a finish that succeeds puts exactly the hash of the bytes taken since the last reset into the output, and nothing else is ever put there; after it, bytes are left in the input until the next reset. The hash library is never used before its start or after its end. CRC-32 and Adler-32 are what they are defined to be, with the most significant byte first.", "quantifier": "all sequences of calls, all bytes, all divisions of the input into pieces, all hash libraries for which pieces do not matter", "why_tests_cant": "A digest that depends on where pieces end, or on what was hashed before a reset, is right for the inputs of a test.", "anchors": [{"file": "crypto/wvdigest.cc", "symbols": ["WvEVPMDDigest", "WvHMACDigest", "WvCrc32Digest", "WvAdler32Digest"]}, {"file": "utils/wvencoder.cc", "symbols": ["WvEncoder::encode", "WvEncoder::finish", "WvEncoder::reset"]}]}
{"id": "C120", "title": "UniConf on an old configuration file", "statement": "A UniConf tree whose data are in a WvConf file: after every history of settings and removals, each key (section and entry) has the value it was last set to, or none if it, or its section, was removed since; others keep theirs, case does not matter, and entries that are inherited or global are found as in the file. Each change is told once with its key and new value, and whoever is told finds the new value. Iterating a section lists exactly its entries.", "quantifier": "all configurations, all histories of settings and removals, all keys and values", "why_tests_cant": "What a key is depends on all settings of keys that differ in case or are divided differently into section and entry; removal goes another way than setting.", "anchors": [{"file": "uniconf/uniwvconfgen.cc", "symbols": ["UniWvConfGen::get", "UniWvConfGen::set", "UniWvConfGen::notify", "UniWvConfGen::haschildren", "UniWvConfGen::iterator"]}, {"file": "configfile/wvconf.cc", "symbols": ["WvConf::set", "WvConf::delete_section"]}]}
{"id": "C121", "title": "Listeners", "statement": "A listener on a path, in every history of creations, connections, calls, closings and destructions of listeners: each connection that comes is given once, in order, to the function for connections, wrapped in all wrappers that were added; without such a function it waits. While a listener listens it can be reached at its path; a second one cannot be created there and does no harm. The socket has the mode asked for, less the mask, and is gone when its listener is closed or destroyed; a path that no listener has is left alone.", "quantifier": "all histories of operations on any number of listeners, all paths, modes and masks, all initial file systems without sockets", "why_tests_cant": "Which listener has a path depends on the whole history of creations and removals at that path, including destructions of listeners that were closed long before.", "anchors": [{"file": "ipstreams/wvlistener.cc", "symbols": ["WvListener::callback", "WvListener::addwrap", "WvListener::onaccept"]}, {"file": "ipstreams/wvunixsocket.cc", "symbols": ["WvUnixListener::WvUnixListener", "WvUnixListener::close", "WvUnixListener::accept"]}]}
{"id": "C122", "title": "Buffer streams", "statement": "A WvBufStream gives back what was written to it: in every history of writing, reading, flushing and the rest, what is received is what was written, in order, with nothing lost, even after closing; a read gives as much as asked for, or as there is. After seteof the stream stays open until everything has been received, then the next read closes it; getline gives exactly the lines of the text and the rest after the last newline.", "quantifier": "all histories of operations, all contents, all ways in which flushing moves pieces", "why_tests_cant": "What is there to be read depends on all writes, reads, flushes and limits before, and on in which piece delayed output is moved.", "anchors": [{"file": "streams/wvbufstream.cc", "symbols": ["WvBufStream::close", "WvBufStream::uread", "WvBufStream::uwrite", "WvBufStream::post_select"]}, {"file": "streams/wvstream.cc", "symbols": ["WvStream::read", "WvStream::write", "WvStream::blocking_getline", "WvStream::flush_outbuf"]}]}
{"id": "C123", "title": "Daemons that run streams", "statement": "A WvStreamsDaemon: in every history of starts, rounds, restarts and closings, a stream that is added runs in the list of all streams; when one added for restarting or dying closes while the daemon runs, the daemon restarts or dies, and closings while it stops have no effect. When it stops, its streams are removed and freed if that was asked for; other streams stay over restarts, unless all are to be closed, and none is left when it has died. It starts again after each restart; without streams it dies.", "quantifier": "all histories of rounds with any streams added, closed or freed in them", "why_tests_cant": "Which streams are in the list at a restart depends on everything that was added, closed and removed since the start, in any order.", "anchors": [{"file": "streams/wvstreamsdaemon.cc", "symbols": ["WvStreamsDaemon::do_start", "WvStreamsDaemon::do_run", "WvStreamsDaemon::do_stop", "WvStreamsDaemon::add_stream", "WvStreamsDaemon::restart_close_cb", "WvStreamsDaemon::die_close_cb"]}]}
{"id": "C124", "title": "Authenticating users", "statement": "A WvPam object, with any PAM library: authenticate makes the steps of an authentication in order and none after one that fails; it succeeds if and only if all succeed. After any history of an object the user is validated if and only if the last authentication succeeded, and only then has a name, which is the one PAM gives; getgroups gives the groups that user is a member of. A session that is opened is closed. A connection to a configuration daemon that uses PAM is served only if its host is let in, with the credentials PAM gives. Names and numbers of users are found for each other. Salts of encrypted passwords are valid and use all characters.", "quantifier": "all libraries (any answers to any calls), all histories of an object, all databases of users and groups, all random numbers", "why_tests_cant": "What PAM answers depends on the modules that are installed and can be any status at any step; the user who is let in must be right after every history.", "anchors": [{"file": "utils/wvpam.cc", "symbols": ["WvPam::init", "WvPam::authenticate", "WvPam::check_pam_status", "WvPam::getgroups", "WvPam::~WvPam", "passconv"]}, {"file": "uniconf/daemon/uniconfpamconn.cc", "symbols": ["UniConfPamConn::UniConfPamConn"]}, {"file": "utils/wvuid.cc", "symbols": ["wv_username_from_uid", "wv_uid_from_username"]}, {"file": "utils/strcrypt.cc", "symbols": ["passwd_crypt", "passwd_md5"]}]}
{"id": "C125", "title": "Programs on a terminal of their own", "statement": "A WvPty takes the first pair of terminals that can be opened and leaves no other descriptor open; the program that runs has the terminal as its three standard descriptors, in a session of its own, with the other descriptors as they were, and is run only if every step before was fine and the callback agreed; if not, the child ends with 242. In every history of calls the object says rightly whether the program runs, has ended or was killed, and with which code or signal; signals go to that program only, and to nobody after its end was noticed. The names of the terminals can be asked for.", "quantifier": "all answers of the system, all histories of calls and ends of the program", "why_tests_cant": "Which terminals are in use, which calls fail and when the program ends are up to the system; a wrong pid would hit other processes.", "anchors": [{"file": "linuxstreams/wvpty.cc", "symbols": ["WvPty::open_pty", "WvPty::WvPty", "WvPty::kill", "WvPty::monitor_child", "WvPty::child_exited", "WvPty::child_killed", "WvPty::finish", "WvPty::exit_status"]}, {"file": "include/wvpty.h", "symbols": ["WvPty::master", "WvPty::slave"]}]}
{"id": "C126", "title": "Regular expressions", "statement": "A WvRegex matches a text if and only if the regular expression library says so, with the last good expression that was set and with none after a bad one; each register gets exactly the part of the text that its group matched and is left alone if the group took no part, other strings are not changed, and the place of the match is that of the whole; the object says what is wrong with a bad expression; the documented loop finds all matches of a line and ends.", "quantifier": "all expressions and texts, all answers a regular expression library may give, all registers, also the text itself", "why_tests_cant": "What groups match depends on the expression and the text; registers are written while the text is read.", "anchors": [{"file": "utils/wvregex.cc", "symbols": ["WvRegex::set", "WvRegex::seterr", "WvRegex::match"]}, {"file": "include/wvregex.h", "symbols": ["WvRegex::_match", "WvRegex::match", "WvRegex::continuable_match"]}]}
{"id": "C127", "title": "Agreeing on a secret by exchanging public values", "statement": "Two WvDiffieHellman (or WvOakleyAuth) objects with the same modulus and generator, whatever private numbers they drew, have the same secret after they gave each other their public values, and it is the generator to the power of both private numbers; a public value is the right number in as few bytes as possible and its length is as told; exactly the peer's bytes are taken from the input; the Oakley groups use the published primes; the other side's public key can be read back; values that a peer must not send are refused, and the secret is not shown to anyone.", "quantifier": "all moduli, generators, private numbers, buffers and values sent by the peer", "why_tests_cant": "The private numbers are drawn at random, the peer may send anything, and the numbers have hundreds of digits; leading zeros occur in one of 256 exchanges.", "anchors": [{"file": "crypto/wvdiffiehellman.cc", "symbols": ["WvDiffieHellman::WvDiffieHellman", "WvDiffieHellman::pub_key_len", "WvDiffieHellman::get_public_value", "WvDiffieHellman::create_secret"]}, {"file": "crypto/wvoakley.cc", "symbols": ["group1_key", "group2_key", "WvOakleyAuth::WvOakleyAuth", "WvOakleyAuth::get_public_key", "WvOakleyAuth::create_secret", "WvOakleyAuth::get_other_public_key"]}]}
{"id": "C128", "title": "RSA keys and their text", "statement": "A private RSA key written in a form for private keys and read again is the same key, and written in a form for public keys and read again it is its public part; hexadecimal text is read with digits of either case and white space anywhere, and text that is not a key gives an object that is not good; an object is good exactly if it has a key whose private numbers, if it is a private key, fit; forms for public keys, and any form of a key that is marked as public, tell nothing about private numbers; a copy is as good as the original; no object can make these calls misbehave.", "quantifier": "all keys, texts, forms, sequences of constructors, copies and reads, all libraries that read what they wrote", "why_tests_cant": "Keys and texts come from files and peers and can be anything; whether an export depends on private numbers is a statement about pairs of keys.", "anchors": [{"file": "crypto/wvrsa.cc", "symbols": ["WvRSAKey::WvRSAKey", "WvRSAKey::isok", "WvRSAKey::encode", "WvRSAKey::decode"]}, {"file": "include/wvrsa.h", "symbols": ["WvRSAKey", "WvRSAKey::DumpMode"]}]}
{"id": "C129", "title": "Values computed by functions of the program", "statement": "A UniCallbackGen calls the function registered for a key with set() and then, unless told not to, the one that computes its value, exactly once each and in that order, and stores what was computed, or the given value if no function is registered; get() gives the most recently computed value, or computes it just then if told to; registering a function replaces the earlier one for that key and for no other; keys that no function computes keep the values they are given.", "quantifier": "all functions of the program, all sequences of calls, all keys, all orders of hash tables", "why_tests_cant": "The functions are the program's own, may have any state and give another value each time; what is called how often shows only in histories.", "anchors": [{"file": "include/unicallbackgen.h", "symbols": ["UniCallbackGen::setgetcallback", "UniCallbackGen::setsetcallback", "UniCallbackGen::update", "UniCallbackGen::get", "UniCallbackGen::set"]}, {"file": "uniconf/uniconfgen.cc", "symbols": ["UniConfGen::exists"]}]}
{"id": "C130", "title": "Walking through a prepared list of keys", "statement": "A UniListIter gives exactly the keys that were added, in that order, each with the value it was added with, or, if it was added without one, with the value the generator has for it; it can be rewound, and filled from another iterator, whose pairs it then gives.", "quantifier": "all sequences of adding, rewinding, advancing and reading; all generators", "why_tests_cant": "Keys and values are kept in two lists with an iterator each; whether they stay in step depends on which keys were added with values, and in which order.", "anchors": [{"file": "uniconf/unilistiter.cc", "symbols": ["UniListIter::add", "UniListIter::autofill", "UniListIter::rewind", "UniListIter::next", "UniListIter::key", "UniListIter::value"]}, {"file": "include/unilistiter.h", "symbols": ["UniListIter"]}]}
{"id": "C131", "title": "Coloured log messages", "statement": "A console that colours its lines shows exactly the characters a console without colours shows, whatever the messages contain; each message has the colours of its level; after each message the terminal is back to its usual look; and on anything but a terminal known to have colours no sequences are written.", "quantifier": "all sequences of messages (any source, level, bytes), level rules, terminals and values of TERM; a terminal that interprets the colour and clear sequences", "why_tests_cant": "Sequences are put around every piece of a line by virtual functions that call each other, and the text of a message may itself look like a sequence; only all texts and all ways lines are split show that neither breaks the other.", "anchors": [{"file": "streams/wvcolorlogconsole.cc", "symbols": ["WvColorLogConsole::_begin_line", "WvColorLogConsole::_mid_line", "WvColorLogConsole::_end_line", "WvColorLogConsole::can_colorize", "WvColorLogConsole::color_start_seq"]}, {"file": "streams/wvlog.cc", "symbols": ["WvLogRcv::log", "WvLogConsole::~WvLogConsole"]}]}
{"id": "C132", "title": "The working directory comes back at the end of a scope", "statement": "While a WvPushDir object lives the process is in the directory it was given (or there is an error and the process has not moved); at the end of its scope the process is again in the directory it was in before, for scopes inside scopes to any depth and whatever the program does in between.", "quantifier": "all sets of directories and permissions, all properly nested sequences of scopes, changes of directory and changes to the directories", "why_tests_cant": "What must hold depends on everything that happens between the constructor and the destructor, including what other processes do to the directories, and on nesting of any depth.", "anchors": [{"file": "include/wvpushdir.h", "symbols": ["WvPushDir::WvPushDir", "WvPushDir::~WvPushDir"]}]}
{"id": "C133", "title": "Modems: speeds, hanging up and closing", "statement": "Setting a modem's speed sets its port to the greatest speed there is that is not above the one asked for, and answers the speed the port really has; hanging up keeps the speed; and once the modem is closed its port has the settings it had before, apart from CLOCAL, which is then set, and its file has been closed exactly once, whatever has been done with it and whichever reads and writes failed, also during closing.", "quantifier": "all speeds, settings of the port, drivers, sequences of calls, answers to reads, writes, select and the carrier line", "why_tests_cant": "An error while closing calls close again from inside, at any of a dozen places; only all schedules of failures show that the settings come back and nothing is closed twice.", "anchors": [{"file": "streams/wvmodem.cc", "symbols": ["WvModem::WvModem", "WvModem::setup_modem", "WvModem::close", "WvModem::speed", "WvModemBase::get_real_speed", "WvModemBase::hangup", "WvModem::carrier"]}, {"file": "include/wvmodem.h", "symbols": ["WvModemBase", "WvModem"]}]}
{"id": "C134", "title": "The running processes, and sending a signal to all that run a program", "statement": "Iterating over the running processes visits each process that ps lists once, in its order, with its number, its program and the words of its command; wvkillall sends the signal once to each process whose program has the name, in whatever directory the program is, to no other process, and answers whether there is one.", "quantifier": "all lists of processes, numbers, commands, widths of columns, names, signals, earlier uses of the iterator", "why_tests_cant": "Which processes run, and what their commands look like, is up to all users of the machine.", "anchors": [{"file": "streams/wvprociter.cc", "symbols": ["WvProcIter::rewind", "WvProcIter::next", "wvkillall"]}, {"file": "include/wvprociter.h", "symbols": ["WvProcIter", "WvProcEnt"]}]}
{"id": "C135", "title": "Objects that watch a configuration", "statement": "An object that watches a configuration is called for exactly the changes it watches from the time it is made until it is destroyed, and never afterwards, whatever other objects come and go in whatever order; when all are destroyed nothing is left of them and the configuration can be destroyed.", "quantifier": "all sequences of making, copying and destroying objects, all keys, all places in memory that are used again, all changes, all orders of hash tables", "why_tests_cant": "Objects share places in a tree that is pruned, and addresses are used again; only all histories show that no watch stays behind.", "anchors": [{"file": "uniconf/uniwatch.cc", "symbols": ["UniWatch::UniWatch", "UniWatch::~UniWatch"]}, {"file": "include/uniwatch.h", "symbols": ["UniWatch", "UniWatchList"]}]}
{"id": "C136", "title": "Iterating over the files that match a pattern", "statement": "A directory iterator with a pattern shows exactly the files, in the directory or also below it, whose path from where it started matches the pattern, each once, in the order in which they are shown without a pattern; without a pattern it shows all.", "quantifier": "all directory trees, however deep and wide, patterns, names of directories, and numbers of steps", "why_tests_cant": "Directory trees and patterns nest without bound, and whether a file is shown depends on both.", "anchors": [{"file": "utils/wvglobdiriter.cc", "symbols": ["WvGlobDirIter::WvGlobDirIter", "WvGlobDirIter::next"]}, {"file": "include/wvglobdiriter.h", "symbols": ["WvGlobDirIter"]}]}
{"id": "C137", "title": "What a program leaves behind for a crash", "statement": "The crash log gives the last bytes that were put into it and not yet taken out, as many as there is room for, in their order, and says that it has nothing only when it has nothing; a crash report shows exactly the last bytes of all that was logged. Numbers are written in decimal and addresses in hexadecimal with all their digits. The will in the report is the one of the innermost will object that is there, up to 2047 bytes; destroying an object brings the will before it back.", "quantifier": "all sizes of the log, texts and histories of putting and taking, all ints and addresses, all nested histories of wills", "why_tests_cant": "The ring buffer wraps at every position, and a crash can come after any history.", "anchors": [{"file": "utils/wvcrashbase.cc", "symbols": ["wvcrash_ring_buffer_put", "wvcrash_ring_buffer_get", "wvcrash_leave_will", "wvcrash_read_will"]}, {"file": "utils/wvcrash.cc", "symbols": ["wrn", "wra"]}, {"file": "utils/wvassert.cc", "symbols": ["WvCrashWill::WvCrashWill", "WvCrashWill::rewrite", "WvCrashWill::~WvCrashWill"]}]}
{"id": "C138", "title": "Console streams leave the console alone", "statement": "A console stream (wvin, wvout, wverr, wvcon) never closes or shuts down the descriptors of the console: not when it is closed or destroyed, not on errors or at the end of the input. It is ok until it is closed, by the program, an error or the end of the input, and never again afterwards; then nothing is done with the console any more. While it is ok, what reached the console and then what is in its buffer is exactly what was written to it, in order.", "quantifier": "all histories of operations on a console stream, all answers of the system to reads, writes and waits", "why_tests_cant": "The system may answer each call in any way, and errors close the stream in the middle of other operations.", "anchors": [{"file": "streams/wvconstream.cc", "symbols": ["_WvConStream::_WvConStream", "_WvConStream::close", "_WvConStream::isok"]}, {"file": "streams/wvfdstream.cc", "symbols": ["WvFdStream::close", "WvFdStream::maybe_autoclose", "WvFdStream::uwrite", "WvFdStream::uread"]}]}
{"id": "C139", "title": "Streams that wake themselves", "statement": "A process queue in a list of streams works by itself: when the list is run at some time and again at least a second later, the queue is looked at in between or then; a tenth of a second is enough if something was left in the queue when it was looked at, and no time if something was started. So the first waiting process is started within a second, if those that run have finished; and the rules of process queues (how many run, in which order, cookies) hold whatever is added and whenever the list is run. A timeout stream that is called at some times is ok exactly if each of them was before its time had passed.", "quantifier": "all histories of adding processes and running the list at times that do not go backwards, all answers about which processes have finished, all limits and times", "why_tests_cant": "Adding, finishing and running the list interleave in any way, and the next look is set at each look.", "anchors": [{"file": "streams/wvsubprocqueuestream.cc", "symbols": ["WvSubProcQueueStream::WvSubProcQueueStream", "WvSubProcQueueStream::execute"]}, {"file": "utils/wvsubprocqueue.cc", "symbols": ["WvSubProcQueue::go", "WvSubProcQueue::remaining"]}, {"file": "streams/wvtimeoutstream.cc", "symbols": ["WvTimeoutStream::WvTimeoutStream", "WvTimeoutStream::execute"]}]}
{"id": "C140", "title": "A directory of configuration files", "statement": "When a directory of configuration files is one configuration and a file in it that has keys is looked up, each key below has the value that the file has, and no other one has any, whatever else is looked up before and afterwards.", "quantifier": "all directories and contents of files, all histories of keys that are looked up, all keys below the file", "why_tests_cant": "Each key that is looked up mounts something, which stays and may come before what was mounted earlier.", "anchors": [{"file": "uniconf/unifstreegen.cc", "symbols": ["UniAutoMountGen::automount", "UniAutoMountGen::keymap"]}, {"file": "uniconf/unimountgen.cc", "symbols": ["UniMountGen::mount", "UniMountGen::mountgen", "UniMountGen::makemount", "UniMountGen::findmount", "UniMountGen::whichmount", "UniMountGen::get", "UniMountGen::set"]}]}
{"id": "C141", "title": "Generators around others", "statement": "A generator behind a bachelor is after any history of requests as if it had never been asked to commit or refresh, and all other requests are answered as it answers them; refreshing the bachelor fails. A null generator answers as a configuration that has nothing, whatever is set. A generator that counts slow operations changes no answer and nothing that its inner generator sees; its count is that of the requests that may have to wait since the count was reset.", "quantifier": "all inner generators and states, all histories of requests and resets, all requests after them", "why_tests_cant": "The wrapped generator can be any, and each kind of request has its own way through the wrapper.", "anchors": [{"file": "uniconf/unibachelorgen.cc", "symbols": ["UniBachelorGen::commit", "UniBachelorGen::refresh"]}, {"file": "include/uninullgen.h", "symbols": ["UniNullGen"]}, {"file": "uniconf/unislowgen.cc", "symbols": ["UniSlowGen::be_slow", "UniSlowGen::get", "UniSlowGen::commit"]}, {"file": "include/unislowgen.h", "symbols": ["UniSlowGen::flush_buffers", "UniSlowGen::how_slow", "UniSlowGen::reset_slow"]}]}
{"id": "C142", "title": "Shared memory zones", "statement": "A zone of shared memory is ok exactly if it has memory, of the size asked for; and it is ok if the system gives a descriptor and memory, in either way it is asked. When a zone is made and destroyed, whatever the system answers, the process has the descriptors and the memory it had before.", "quantifier": "all sizes, all answers of the system, all descriptors and memory the process has before", "why_tests_cant": "The system calls may fail one by one, and sizes are converted.", "anchors": [{"file": "utils/wvshmzone.cc", "symbols": ["WvShmZone::WvShmZone", "WvShmZone::~WvShmZone"]}, {"file": "include/wvshmzone.h", "symbols": ["WvShmZone"]}]}
{"id": "C143", "title": "Loopback streams", "statement": "What a program reads from a loopback stream is the beginning of what it wrote to it, whatever else it does with the stream and however much the system takes or gives at a time; while the stream is ok nothing is lost: what was read, what the system keeps and what is still to be written are together all that was written. The same holds for each direction of two streams that are joined. If the system gives no descriptors, the stream is not ok and stays so.", "quantifier": "all histories of writing, reading, flushing, waiting, closing and errors, all answers of the system that keep the bytes in order", "why_tests_cant": "The system takes and gives any number of bytes at each call, and errors may come at any of them.", "anchors": [{"file": "streams/wvloopback.cc", "symbols": ["WvLoopback::WvLoopback"]}, {"file": "streams/wvloopback2.cc", "symbols": ["wvloopback2"]}, {"file": "streams/wvsocketpair.cc", "symbols": ["wvsocketpair"]}, {"file": "streams/wvfdstream.cc", "symbols": ["WvFdStream::uread", "WvFdStream::uwrite"]}, {"file": "streams/wvstream.cc", "symbols": ["WvStream::write", "WvStream::read", "WvStream::flush_outbuf"]}]}
{"id": "C144", "title": "A stream between two processes", "statement": "When one process writes to a stream in shared memory and another one reads from it and waits for data, then however they interleave the bytes arrive in order and no more than the size of the stream are in it; and the reader does not sleep through data: if it sleeps although there are data it can be woken, at once or after the next step of the writer. It is told that there are data only if there are.", "quantifier": "all interleavings of the two processes, all sizes of the stream and of the socket that wakes the reader, all data", "why_tests_cant": "A wake-up is lost only in particular interleavings of looking, sleeping, writing and waking.", "anchors": [{"file": "streams/wvmagicloopback.cc", "symbols": ["WvMagicLoopback::pre_select", "WvMagicLoopback::post_select", "WvMagicLoopback::uread", "WvMagicLoopback::uwrite"]}, {"file": "utils/wvmagiccircle.cc", "symbols": ["WvMagicCircle::put", "WvMagicCircle::get"]}]}
{"id": "C145", "title": "The memory of a shared circle", "statement": "A circle in shared memory touches only memory that it got from the system, whatever is put into it and gotten from it and whatever size was asked for; it is ok exactly if it got the memory, stores as much as was asked for, and when it is destroyed the process has the descriptors and the memory that it had before.", "quantifier": "all sizes, all answers of the system, all positions in the circle and all lengths put and gotten", "why_tests_cant": "An access behind the memory happens only for particular sizes and positions, and is not noticed in most runs; the system seldom refuses memory.", "anchors": [{"file": "utils/wvmagiccircle.cc", "symbols": ["WvMagicCircle::WvMagicCircle", "WvMagicCircle::used", "WvMagicCircle::put", "WvMagicCircle::get"]}, {"file": "utils/wvshmzone.cc", "symbols": ["WvShmZone::WvShmZone", "WvShmZone::~WvShmZone"]}]}
{"id": "C146", "title": "Packets of an IP protocol", "statement": "What is written to a raw IP stream is sent in the order in which it was written, each byte once, each write as a packet of its own, to the address from which a packet came last, whatever the system answers; errors of the network other than a lack of permission do not close it, and while it is ok nothing that was written is lost.", "quantifier": "all sequences of writes, reads and attempts to flush, all data, all answers of the system", "why_tests_cant": "Packets are merged or go elsewhere only if the system refuses one at a particular moment.", "anchors": [{"file": "ipstreams/wvipraw.cc", "symbols": ["WvIPRawStream::uread", "WvIPRawStream::uwrite", "WvIPRawStream::src"]}, {"file": "streams/wvstream.cc", "symbols": ["WvStream::write", "WvStream::flush_outbuf"]}]}

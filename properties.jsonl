{"id": "C01", "title": "Variable-length size field round-trips and is self-delimiting", "statement": "Every element/byte count that PVA can carry (0..0xffffffff), written in either byte order, is read back as the same count, consuming exactly the bytes written and leaving whatever follows untouched; a larger count is refused (the buffer faults) instead of being truncated. A strict prefix of the encoding is never accepted.", "quantifier": "all counts, both byte orders, all trailing bytes, all truncation points", "why_tests_cant": "2^32 values x 2 byte orders x arbitrary trailing data; boundaries at 254 and 2^32 are the only ones a test picks", "anchors": ["src/pvaproto.h: to_wire(Buffer&, const Size&)", "src/pvaproto.h: from_wire(Buffer&, Size&, bool)"]}
{"id": "C02", "title": "Fixed-width integers are written most/least significant byte first as negotiated", "statement": "An integer of width 1, 2, 4 or 8 bytes is laid out with its most significant byte first on a big-endian connection and least significant byte first on a little-endian one, independent of the host's own byte order, and reads back identically.", "quantifier": "all integers of each width, both wire orders, both host orders", "why_tests_cant": "needs both host byte orders and the full 2^64 domain", "anchors": ["src/pvaproto.h: _to_wire, _from_wire", "src/pvaproto.h: to_wire/from_wire for POD"]}
{"id": "C03", "title": "Strings round-trip byte for byte", "statement": "Any byte string shorter than 2^32 (including embedded NUL and non UTF-8) sent as a PVA string is received unchanged; the null string marker is received as the empty string.", "quantifier": "all byte strings, both byte orders, all trailing bytes", "why_tests_cant": "unbounded string lengths; length class changes at 254", "anchors": ["src/pvaproto.h: to_wire(Buffer&, const std::string&)", "src/pvaproto.h: from_wire(Buffer&, std::string&)"]}
{"id": "C04", "title": "Status messages round-trip", "statement": "A status (code, message, trace) sent by one peer is seen by the other with the same code, message and trace, and the compact one-byte form is used exactly for OK with no text.", "quantifier": "all status codes, messages and traces, both byte orders", "why_tests_cant": "unbounded texts; the one byte shorthand overlaps the code space", "anchors": ["src/pvaproto.h: to_wire(Buffer&, const Status&)", "src/pvaproto.h: from_wire(Buffer&, Status&)"]}
{"id": "C05", "title": "Message headers round-trip and malformed headers are refused", "statement": "A header written by one peer is decoded by the other to the same command, flags and body length with the sender's byte order; a header with the wrong magic, version zero or fewer than eight bytes is never accepted.", "quantifier": "all commands, flag bytes, lengths, byte orders and all 8-byte inputs", "why_tests_cant": "2^64 possible headers", "anchors": ["src/pvaproto.h: to_wire(Buffer&, const Header&)", "src/pvaproto.h: from_wire(Buffer&, Header&)"]}
{"id": "C06", "title": "Wire decoding never reads outside the received bytes, and a fault is permanent", "statement": "Whatever bytes are received, decoding any primitive, bit mask, type description or value only consumes bytes that were received, in order; after the first fault nothing more is consumed and the overall decode is reported as failed.", "quantifier": "all byte sequences, all types, both byte orders", "why_tests_cant": "adversarial peers choose the bytes; the space is unbounded", "anchors": ["src/pvaproto.h: Buffer::ensure, Buffer::fault, FixedBuf", "src/dataencode.cpp: from_wire, from_wire_full, from_wire_valid", "src/bitmask.cpp: from_wire"]}
{"id": "C07", "title": "Socket addresses round-trip in the 16-byte form", "statement": "An IPv4 or IPv6 address put in a search, beacon or reply is recovered by the receiver as the same address; IPv4 is carried as an IPv4-mapped IPv6 address.", "quantifier": "all IPv4 and IPv6 addresses", "why_tests_cant": "2^128 addresses; the overlap between mapped and native forms", "anchors": ["src/evhelper.cpp: to_wire(Buffer&, const SockAddr&)", "src/evhelper.cpp: from_wire(Buffer&, SockAddr&)"]}
{"id": "C08", "title": "Changed-field bit masks round-trip", "statement": "The set of field indices in a bit mask sent on the wire is exactly the set received, for every mask size, in either byte order, and trailing zeros are not sent.", "quantifier": "all bit sets, all sizes, both byte orders", "why_tests_cant": "sizes are unbounded and bytes/words/sizes interact at 8 and 64 bit boundaries", "anchors": ["src/bitmask.cpp: to_wire, from_wire", "src/bitmask.h: BitMask"]}
{"id": "C09", "title": "Bit mask queries and boolean algebra agree with sets", "statement": "Searching for the next set bit returns the least member not below the starting index (or the size when none); assigning and testing a bit affects only that bit; complement, and, or of masks agree with the set operations on the indices below the size. So do |=, &= and the comparison of two masks.", "quantifier": "all masks, sizes and indices", "why_tests_cant": "word boundaries and tail bits of the last word", "anchors": ["src/bitmask.cpp: BitMask::findSet, resize, operator!", "src/bitmask.h: BitMask::Bit, operator&, operator|, onlySet"]}
{"id": "C10", "title": "Type descriptions round-trip", "statement": "Any type a user can build (nesting up to the decoder's depth limit) is received by the peer as the identical type: same codes, ids, member names and order; a description nested deeper than the limit is refused.", "quantifier": "all type trees, both byte orders, all trailing bytes", "why_tests_cant": "unbounded trees, encoder and decoder are separate recursive functions over a flattened representation", "anchors": ["src/dataencode.cpp: to_wire(Buffer&, const FieldDesc*)", "src/dataencode.cpp: from_wire(Buffer&, std::vector<FieldDesc>&, TypeStore&, unsigned)"]}
{"id": "C11", "title": "The per-connection type cache replays a definition exactly", "statement": "A type sent once as 'define key K' and later referenced by K is decoded as the type most recently defined for K on that connection; a reference to an undefined key is refused.", "quantifier": "all sequences of definitions and references on a connection", "why_tests_cant": "history dependent; tests send one definition per key", "anchors": ["src/dataencode.cpp: from_wire(Buffer&, std::vector<FieldDesc>&, TypeStore&, unsigned) cases 0xfd, 0xfe"]}
{"id": "C12", "title": "A type description accepted from the network is internally consistent", "statement": "Every descriptor table produced by decoding arbitrary bytes is well formed: every member index stays inside the table, children nest inside their parent, sibling sub-tables do not overlap, and every member is reachable by its name.", "quantifier": "all byte sequences", "why_tests_cant": "an adversarial peer chooses the bytes; later array indexing trusts these indices", "anchors": ["src/dataencode.cpp: from_wire(Buffer&, std::vector<FieldDesc>&, TypeStore&, unsigned)", "src/dataimpl.h: FieldDesc"]}
{"id": "C13", "title": "A complete value round-trips", "statement": "A complete structured value (numbers, strings, arrays, nested structures, unions, variants, arrays of structures) sent in full is received with every field equal.", "quantifier": "all types and values of those types, both byte orders", "why_tests_cant": "unbounded nesting and sizes; two mutually recursive functions", "anchors": ["src/dataencode.cpp: to_wire_full, to_wire_field", "src/dataencode.cpp: from_wire_full, from_wire_field"]}
{"id": "C14", "title": "A partial update transfers exactly the changed fields", "statement": "Sending a value with some fields marked as changed makes the receiver's copy (starting from an unchanged instance) show exactly those fields as changed with the sender's contents, and every other field keeps the receiver's previous content and stays unmarked.", "quantifier": "all struct types, all subsets of marked fields (including whole sub-structures), all selection masks", "why_tests_cant": "2^n mark patterns on unbounded trees; index arithmetic skips whole sub-trees", "anchors": ["src/dataencode.cpp: to_wire_valid, from_wire_valid"]}
{"id": "C15", "title": "Marking a field marks exactly what the API says", "statement": "mark() flags the field; marking with parents also flags every enclosing structure and nothing else; unmark() with children clears the whole sub-tree; isMarked reports a field as changed iff it, an enclosing structure, or (when asked) a descendant was marked. clear() gives the field and every field below it, and no other, its initial content and unmarks it.", "quantifier": "all types, all sequences of mark/unmark calls", "why_tests_cant": "histories of calls over unbounded trees", "anchors": ["src/data.cpp: Value::mark, Value::unmark, Value::isMarked, Value::clear"]}
{"id": "C16", "title": "Iteration visits exactly the documented fields", "statement": "iall visits every descendant field exactly once in depth-first declaration order, ichildren exactly the direct members in declaration order, imarked exactly the fields covered by a mark, without repeats.", "quantifier": "all types, all mark patterns", "why_tests_cant": "unbounded trees; the implementation walks flat indices with skip counts", "anchors": ["src/data.cpp: Value::_iter_fl, Value::_iter_advance", "src/pvxs/data.h: Value::Iterable, IterableBase"]}
{"id": "C17", "title": "Assigning one structure to another copies exactly the marked fields", "statement": "a.assign(b) for structures of the same type makes every field marked in b equal in a and marked in a; every field not marked in b keeps its content and its mark in a.", "quantifier": "all struct types, all contents and mark patterns of both sides", "why_tests_cant": "2^n mark patterns on unbounded trees", "anchors": ["src/data.cpp: Value::assign, Value::copyIn"]}
{"id": "C18", "title": "Dotted-path lookup finds precisely the named member", "statement": "v[\"a.b.c\"] yields the field reached by descending through the members a, then b, then c; `<` goes to the enclosing structure, `->` and `->name` to what a Union or Any holds, and `[n]` to an element of an array. An expression which names nothing yields an invalid Value and never an unrelated field; lookup() throws LookupError instead.", "quantifier": "all types, all values, all starting fields, all lookup strings", "why_tests_cant": "unbounded types and strings; two lookup tables (direct and dotted) must agree", "anchors": ["src/data.cpp: Value::traverse, Value::operator[]", "src/dataimpl.h: FieldDesc::mlookup, miter"]}
{"id": "C19", "title": "Type code scalar/array conversions are inverse and total", "statement": "arrayOf() and scalarOf() are mutually inverse on every code that has both forms, never yield an undefined code, and leave kind, size and signedness unchanged.", "quantifier": "all 256 type codes", "why_tests_cant": "tests cover named codes only; the code byte arrives from the network", "anchors": ["src/pvxs/data.h: TypeCode::scalarOf, arrayOf, kind, size, order, isunsigned, isarray, valid"]}
{"id": "C20", "title": "Stream framing does not depend on how TCP delivers the bytes", "statement": "For any byte stream from a peer, the sequence of complete messages acted upon, the disconnect decision and the negotiated byte order are the same however the stream is cut into reads.", "quantifier": "all byte streams, all ways of splitting them into reads, both roles", "why_tests_cant": "exponentially many splits; tests use whole messages", "anchors": ["src/conn.cpp: ConnBase::bevRead"]}
{"id": "C21", "title": "Segmented messages are reassembled exactly", "statement": "A message sent as any number of segments is acted on once, with a body equal to the concatenation of the segments in order, with control messages allowed between segments; any segmentation violation closes the connection and nothing further is acted on.", "quantifier": "all segmentations, all bodies, all interleaved control messages", "why_tests_cant": "unbounded number of segments; error cases are combinations of flags", "anchors": ["src/conn.cpp: ConnBase::bevRead"]}
{"id": "C22", "title": "Each GET/PUT/RPC execution receives at most one reply", "statement": "However the server application uses its handle (replies several times, replies late, never replies) and however the peer interleaves execute, cancel, destroy and disconnect, the number of execution replies sent for a request never exceeds the number of executions accepted, and no reply is sent for a destroyed request.", "quantifier": "all interleavings of peer messages and application calls", "why_tests_cant": "interleavings of two independent parties are unbounded", "anchors": ["src/serverget.cpp: ServerGPR::doReply, ServerConn::handle_GPR", "src/serverconn.cpp: handle_CANCEL_REQUEST, handle_DESTROY_REQUEST"]}
{"id": "C23", "title": "A reply belongs to the execution it answers", "statement": "A reply made through the handle of an execution that the client cancelled is never delivered as the answer to a later execution of the same request.", "quantifier": "all interleavings of execute, cancel, re-execute and late replies", "why_tests_cant": "needs a specific race between application thread and peer", "anchors": ["src/serverget.cpp: ServerGPRExec::reply, ServerGPR::doReply", "src/serverconn.cpp: handle_CANCEL_REQUEST"]}
{"id": "C24", "title": "Operation close callbacks run exactly once", "statement": "For each server side operation the application's onClose callback runs at most once, and exactly once by the time the request, channel or connection is gone; onCancel runs only while an execution is outstanding.", "quantifier": "all interleavings", "why_tests_cant": "several teardown paths (destroy request, destroy channel, last request, disconnect) may overlap", "anchors": ["src/serverconn.cpp: ServerOp::cleanup, handle_DESTROY_REQUEST", "src/serverget.cpp, src/servermon.cpp"]}
{"id": "C25", "title": "The server's subscription queue is bounded, ordered and loses nothing but squashed intermediate states", "statement": "With post()/tryPost() the server side queue never exceeds the negotiated limit; updates are sent in post order; each sent update is one posted update or the in-order merge of consecutive posted updates; the last posted content of every field is what the final queued update carries.", "quantifier": "all sequences of post/tryPost/forcePost/finish/ack/start/stop/transmit", "why_tests_cant": "histories are unbounded and depend on queue occupancy", "anchors": ["src/servermon.cpp: ServerMonitorControl::doPost, MonitorOp::doReply, MonitorOp::maybeReply"]}
{"id": "C26", "title": "Finish is delivered last and exactly once", "statement": "After finish() no further post is accepted; the subscriber receives every update queued before it, then one final message, then nothing.", "quantifier": "all histories", "why_tests_cant": "ordering across queue states, flow control and stop/start", "anchors": ["src/servermon.cpp: ServerMonitorControl::doPost, MonitorOp::doReply"]}
{"id": "C27", "title": "Pipeline flow control: the server never sends more updates than the client granted", "statement": "With a pipelined subscription, the number of data updates sent never exceeds the initial window plus all acknowledged counts received so far.", "quantifier": "all histories of posts, finish, acks, start/stop", "why_tests_cant": "depends on the interleaving of acks and posts", "anchors": ["src/servermon.cpp: MonitorOp::doReply, maybeReply, ServerConn::handle_MONITOR"]}
{"id": "C28", "title": "Pipeline flow control: no stall", "statement": "Whenever the subscription is running, updates are queued and the client has granted window, a transmission is scheduled (no update is left waiting for an unrelated later event).", "quantifier": "all histories of posts, acks, start/stop, transmissions", "why_tests_cant": "the stall needs a particular order of window exhaustion, ack and silence", "anchors": ["src/servermon.cpp: MonitorOp::maybeReply, ServerConn::handle_MONITOR"]}
{"id": "C29", "title": "Subscribers to one PV are independent", "statement": "What one subscriber of a SharedPV receives does not depend on how fast another subscriber consumes: each subscriber's queue contains the values posted, unaffected by merging done in another subscriber's queue.", "quantifier": "all numbers of subscribers, queue limits and consumption schedules", "why_tests_cant": "needs two subscribers at different speeds and aliasing of stored values", "anchors": ["src/sharedpv.cpp: SharedPV::post, connectSub", "src/servermon.cpp: ServerMonitorControl::doPost"]}
{"id": "C30", "title": "SharedPV: get and monitor observe posts in order", "statement": "After open(v0) and posts p1..pn, fetch() returns v0 with p1..pn assigned in order; a subscriber that attached at time t first receives the value current at t and then every later post, missing none.", "quantifier": "all interleavings of open, post, subscribe, close", "why_tests_cant": "subscriber registration releases the lock part way", "anchors": ["src/sharedpv.cpp: SharedPV::open, post, fetch, attach, connectSub"]}
{"id": "C31", "title": "SharedPV life cycle", "statement": "open() is refused while open, post()/fetch() refused while closed; close() closes every channel and finishes every subscription, the last-disconnect callback runs when the last channel goes and the first-connect callback when the first arrives.", "quantifier": "all interleavings of open, close, attach, channel close", "why_tests_cant": "histories", "anchors": ["src/sharedpv.cpp: SharedPV::attach, open, close"]}
{"id": "C32", "title": "Field selection (pvRequest) selects exactly the requested fields", "statement": "The set of fields sent for a request naming fields f1..fn is: the top level, the named fields with everything below them, and the structures enclosing them; an absent or empty selection means everything; a request matching nothing is refused.", "quantifier": "all types, all requests", "why_tests_cant": "unbounded pairs of trees", "anchors": ["src/pvrequest.cpp: request2mask, testmask"]}
{"id": "C33", "title": "pvRequest text parser accepts the documented grammar and builds the corresponding request", "statement": "field(a,b.c)record[k=v] style strings are parsed to the request naming exactly these fields and options; other text is refused with an exception; parsing always terminates.", "quantifier": "all input strings", "why_tests_cant": "unbounded input", "anchors": ["src/clientreq.cpp: PVRParser, CommonBase::_parse, _field, _record"]}
{"id": "C34", "title": "A client operation delivers exactly one result", "statement": "A get/put/rpc operation completes its result callback exactly once for auto-executed operations (value, remote error, builder error, disconnect or none if cancelled), and never after cancel() returned.", "quantifier": "all interleavings of replies, disconnects, reconnects and cancel", "why_tests_cant": "interleavings of network and user events", "anchors": ["src/clientget.cpp: GPROp, Connection::handle_GPR"]}
{"id": "C35", "title": "Re-executed client operations report every outcome", "statement": "For an operation created with autoExec(false), every accepted reExecGet/reExecPut call gets its result callback invoked with the reply, the server's error, or a disconnect error.", "quantifier": "all histories of reExec, replies, errors, disconnects", "why_tests_cant": "error replies in the re-exec state are not covered", "anchors": ["src/clientget.cpp: GPROp::_reExecImpl, sendReply, Connection::handle_GPR"]}
{"id": "C36", "title": "Client subscription event notification is never lost", "statement": "If the event queue is non-empty and the user has drained it since (seen an empty pop), the event callback has been invoked; the callback is not invoked again before the user drains the queue.", "quantifier": "all interleavings of arrivals, pops, disconnects and reconnects", "why_tests_cant": "edge-triggered wakeups fail only in particular interleavings", "anchors": ["src/clientmon.cpp: SubscriptionImpl::wantToNotify, _pop, createOp, disconnected, Connection::handle_MONITOR"]}
{"id": "C37", "title": "Client subscription queue order and squashing", "statement": "The client pops events in arrival order; the queue of a non-pipelined subscription holds at most queueSize data updates by merging into the newest entry, which keeps the latest content of every field; Finished comes after all data.", "quantifier": "all arrival and pop histories", "why_tests_cant": "histories", "anchors": ["src/clientmon.cpp: Connection::handle_MONITOR, SubscriptionImpl::_pop"]}
{"id": "C38", "title": "Client pipeline acknowledgement accounting", "statement": "The total count acknowledged to the server never exceeds the number of data updates received on that connection, so that the server's window plus the client's queue never exceeds queueSize.", "quantifier": "all histories of arrivals, pops, acks, disconnects and reconnects", "why_tests_cant": "needs connection events mixed in the same queue", "anchors": ["src/clientmon.cpp: SubscriptionImpl::_pop, tickAck, createOp"]}
{"id": "C39", "title": "IDs allocated to concurrent channels and requests are distinct", "statement": "Server channel IDs, client channel IDs and request IDs in use at the same time are pairwise distinct, also after the 32-bit counters wrap.", "quantifier": "all allocation/release histories", "why_tests_cant": "wrap-around takes 2^32 allocations", "anchors": ["src/serverchan.cpp: handle_CREATE_CHANNEL", "src/client.cpp: Channel::build, Channel::createOperations"]}
{"id": "C40", "title": "Channel requests are answered by the first source, in priority order, that claims them", "statement": "Sources are consulted in ascending (order, name); the first which takes the channel gets it and no later source is asked; if none does the client is told so.", "quantifier": "all sets of sources and claim behaviours", "why_tests_cant": "combinations of sources", "anchors": ["src/serverchan.cpp: handle_CREATE_CHANNEL", "src/server.cpp: Server::addSource"]}
{"id": "C41", "title": "Search replies contain exactly the claimed names", "statement": "The reply to a search lists exactly the search IDs claimed by some source, in request order; no reply is sent when nothing is claimed unless one was demanded; ignored addresses get nothing.", "quantifier": "all search requests and source behaviours", "why_tests_cant": "combinations", "anchors": ["src/server.cpp: Server::Pvt::onSearch", "src/serverchan.cpp: handle_SEARCH"]}
{"id": "C42", "title": "Every unresolved channel keeps being searched", "statement": "A channel which has not been found is always scheduled in exactly one search bucket and is searched again within one full rotation of the buckets plus its back-off; search packets fit the UDP payload limit and announce the exact number of names they carry.", "quantifier": "all sets of channels, name lengths and schedules", "why_tests_cant": "long running scheduling; overflow of one packet by one name", "anchors": ["src/client.cpp: ContextImpl::tickSearch, Channel::disconnect, procSearchReply"]}
{"id": "C43", "title": "Beacon tracking reports online/offline transitions consistently", "statement": "For each (server, protocol), discovery events alternate Online, Timeout, Online ...; a GUID change is reported as Timeout then Online; a server silent for longer than the timeout is reported once.", "quantifier": "all beacon sequences and clean-up schedules", "why_tests_cant": "histories with clock", "anchors": ["src/client.cpp: ContextImpl::onBeacon, tickBeaconClean"]}
{"id": "C44", "title": "Client channel cache keeps channels in use", "statement": "Cache clean-up never drops a channel which has been used since the previous clean-up pass or is still referenced by an operation; two operations on the same (name, server) share a channel.", "quantifier": "all histories of use and clean-up", "why_tests_cant": "timing of periodic sweep", "anchors": ["src/client.cpp: ContextImpl::cacheClean, Channel::build"]}
{"id": "C45", "title": "Duplicate address list entries are merged without losing reachability", "statement": "Expanding an address list keeps the first occurrence of each (address, interface) in the original order, with the largest TTL given; nothing else is added or dropped.", "quantifier": "all address lists", "why_tests_cant": "lists are unbounded", "anchors": ["src/config.cpp: removeDups"]}
{"id": "C46", "title": "Configured timeouts and ports are validated", "statement": "The effective TCP timeout is always finite, at least 2 s; a TCP/UDP port setting is either used exactly as given (when below 65536) or refused.", "quantifier": "all configuration values", "why_tests_cant": "numeric edge cases", "anchors": ["src/config.cpp: enforceTimeout, parse_timeout, _fromDefs"]}
{"id": "C47", "title": "UDP packets are filtered as specified", "statement": "A forwarded (ORIGIN_TAG) search is accepted only from the local multicast group on a local origin and only one level deep; the names and IDs delivered to the application are those in the packet, in order, a name ending at its first NUL; beacons likewise; a unicast search is passed on to the local group and arrives there complete. What is delivered reaches each listener for that destination (address and port), or for any address, once, and no other.", "quantifier": "all packets", "why_tests_cant": "adversarial input", "anchors": ["src/udp_collector.cpp: UDPCollector::process_one"]}
{"id": "C48", "title": "The bounded FIFO never loses an element or a wake-up", "statement": "MPMCFIFO: elements are popped in push order, each exactly once; the bound is respected; whenever a consumer is blocked while the queue is non-empty (or a producer is blocked while there is space) a wake-up is on its way.", "quantifier": "all numbers of threads and all interleavings", "why_tests_cant": "lost wake-ups occur only in particular interleavings", "anchors": ["src/pvxs/util.h: MPMCFIFO"]}
{"id": "C49", "title": "shared_array bounds checking and immutability", "statement": "at(i) throws exactly when i>=size(); freeze() succeeds only for the sole owner so frozen contents never change; thaw() returns a private copy when the array is shared.", "quantifier": "all arrays, indices and reference histories", "why_tests_cant": "histories of references", "anchors": ["src/pvxs/sharedArray.h: shared_array::at, freeze, thaw, resize, make_unique"]}
{"id": "C50", "title": "Escaped text is unambiguous", "statement": "Distinct byte strings have distinct escaped renderings, consisting of printable ASCII only; put between single or double quotes, a rendering contains no character which ends the quotation.", "quantifier": "all byte strings", "why_tests_cant": "infinite domain", "anchors": ["src/util.cpp: operator<<(std::ostream&, const detail::Escaper&)"]}
{"id": "C51", "title": "Logger level depends only on the configuration", "statement": "The effective level of a logger is determined by the sequence of level-set calls, not by when the logger is first used.", "quantifier": "all sequences of level-set calls and first uses", "why_tests_cant": "orderings", "anchors": ["src/log.cpp: logger_gbl_t::init, set"]}
{"id": "C52", "title": "Work handed to the event loop runs in order, exactly once", "statement": "Functions dispatched to a loop run in dispatch order, each once; call() returns only after its function ran; nothing is accepted after stop.", "quantifier": "all interleavings of dispatch, call, stop", "why_tests_cant": "interleavings", "anchors": ["src/evhelper.cpp: evbase::_dispatch, _call, evbase::Pvt::doWork"]}
{"id": "C53", "title": "Server start/stop are idempotent and exclusive", "statement": "start() acts only when stopped, stop() only when running, in any interleaving; after stop() no connection remains.", "quantifier": "all call sequences from several threads", "why_tests_cant": "interleavings", "anchors": ["src/server.cpp: Server::Pvt::start, stop"]}
{"id": "C54", "title": "A destroyed channel is gone", "statement": "After a client destroys a channel, its server channel id is no longer usable for new requests and is released.", "quantifier": "all histories of create/destroy/request", "why_tests_cant": "histories", "anchors": ["src/serverchan.cpp: handle_DESTROY_CHANNEL, ServerChan::cleanup", "src/serverget.cpp: handle_GPR"]}
{"id": "C55", "title": "Line diff terminates", "statement": "Comparing two texts in the unit test helpers terminates for every input and prints every line of both inputs exactly once in order.", "quantifier": "all pairs of texts", "why_tests_cant": "infinite domain", "anchors": ["src/util.cpp: splitLines, strDiff"]}
{"id": "C56", "title": "The way the network slices a message has no effect on decoding", "statement": "Message bytes held by the receive buffer in any number of separate slices are decoded exactly as if they were contiguous: the same bytes are consumed, in order, and 'not enough bytes' is reported only when fewer bytes than needed were received in total.", "quantifier": "all received byte sequences, all ways of slicing them, all read sizes", "why_tests_cant": "slicing depends on the network, kernel and libevent; a test sees one slicing", "anchors": ["src/pvaproto.h: Buffer::ensure, Buffer::skip, EvInBuf", "src/evhelper.cpp: EvInBuf::refill"]}
{"id": "C57", "title": "equalType() is true exactly for types with the same structure", "statement": "a.equalType(b) is true exactly when both types have the same fields with the same names and types in the same order (ids are ignored); it is symmetric and never reads outside the type descriptions.", "quantifier": "all pairs of types, built or received", "why_tests_cant": "unbounded pairs of types; the comparison walks two tables in parallel but only tests the end of one", "anchors": ["src/data.cpp: Value::_equal", "src/pvxs/data.h: Value::equalType"]}
{"id": "C58", "title": "Conversion of integer scalars is exact or refused", "statement": "Reading or assigning an integer field through a different integer or string type either yields exactly the same number, or follows the documented two's complement conversion (value modulo 2^64 between signed and unsigned, then truncation to the width of the target field); it never yields another number. Read as or stored into a boolean, it tells whether the number is non-zero. A text which is not a numeral in range is refused.", "quantifier": "all values of all integer widths, both directions", "why_tests_cant": "2^64 values per pair of types; boundaries of two representations", "anchors": ["src/data.cpp: copyOutScalar, Value::copyOut, Value::copyIn"]}
{"id": "C59", "title": "onStart tells the application whether the subscriber is running", "statement": "After every history the last call of the onStart callback of a server subscription had the argument true exactly when the subscription is running, so a source which stops producing on onStart(false) does stop when the subscriber goes away, cancels, or the subscription ends.", "quantifier": "all histories of start, stop, cancel, finish, destroy and disconnect", "why_tests_cant": "several paths leave the running state", "anchors": ["src/servermon.cpp: MonitorOp::onCancel, handle_MONITOR", "src/serverconn.cpp: handle_CANCEL_REQUEST"]}
{"id": "C60", "title": "A put or RPC acts on the server at most once per execution", "statement": "Each exec() of an automatically executed put or RPC, and each accepted reExec call, makes the client send the server at most one request to act (EXEC), whatever happens to the connection; an operation whose request may have reached the server is not silently sent again.", "quantifier": "all histories of connects, disconnects, replies and application calls", "why_tests_cant": "needs a disconnect between request and reply, at every point of every history", "anchors": ["src/clientget.cpp: GPROp::disconnected, GPROp::sendReply, GPROp::createOp"]}
{"id": "C61", "title": "A pipelined subscription does not stall", "statement": "When the server has used up the window it was given and the application has popped everything received, the client has an acknowledgement scheduled, so that the server may continue; whatever the queue size and acknowledgement threshold, and across reconnects.", "quantifier": "all histories of updates, pops, acknowledgements, disconnects and reconnects, all queue sizes and thresholds", "why_tests_cant": "a stall needs a particular order of pops, timers and reconnects", "anchors": ["src/clientmon.cpp: SubscriptionImpl::_pop, tickAck, createOp, Connection::handle_MONITOR"]}
{"id": "C62", "title": "A subscription which ends tells why", "statement": "When a client subscription ends other than by cancel() or by dropping it, the last event the application pops is Finished or the error which ended it; after it nothing more comes.", "quantifier": "all histories", "why_tests_cant": "several paths end a subscription", "anchors": ["src/clientmon.cpp: Connection::handle_MONITOR"]}
{"id": "C63", "title": "No server message and no cancel() makes the client subscription follow a dangling pointer", "statement": "Whatever MONITOR messages a server sends and whenever the application cancels, also from its callbacks, the client does not use a null or freed object.", "quantifier": "all message sequences and all points of cancellation", "why_tests_cant": "hostile order of messages; reentrancy", "anchors": ["src/clientmon.cpp: Connection::handle_MONITOR, SubscriptionImpl::_cancel"]}
{"id": "C64", "title": "Addresses printed by the library mean the same when read back", "statement": "An address (with port, and for multicast with time to live and interface) printed in the effective configuration is accepted again and denotes the same destination; without a port it takes the default port. A host name stands for the first IPv4 address it resolves to.", "quantifier": "all IPv4 and IPv6 addresses, ports, times to live and interface names", "why_tests_cant": "2^32 and 2^128 addresses; combinations of optional parts", "anchors": ["src/util.cpp: SockAddr::setAddress, operator<<", "src/config.cpp: SockEndpoint::SockEndpoint, operator<<"]}
{"id": "C66", "title": "hurryUp() starts one quick round of searching, at most once per thirty seconds", "statement": "hurryUp(), or the detection of a new server, makes exactly the next thirty search ticks quick ones; it is accepted only if the previous round is over and at least thirty seconds passed since it started, and otherwise has no effect.", "quantifier": "all interleavings of hurryUp(), beacons, search ticks, clock readings", "why_tests_cant": "histories with clock", "anchors": ["src/client.cpp: ContextImpl::poke, tickSearchS, Context::hurryUp"]}
{"id": "C67", "title": "A group's fields are put in order, and an event of one field updates just the fields its +trigger names", "statement": "For every group definition accepted at IOC start: the fields of the group are kept in increasing +putorder (same order: as defined by name); an event on the record of a field updates exactly the fields which its +trigger lists (comma separated names, or * for all), leaving out names of fields which do not exist or have no +channel; when no field of the group has a +trigger each field updates itself; and the records of just these fields are locked together for the update.", "quantifier": "all group definitions: any number of fields, names, trigger texts, put orders and mapping types, and any set of existing records", "why_tests_cant": "all graphs of triggers and all texts", "anchors": ["ioc/groupconfigprocessor.cpp: validateGroups, defineGroups, defineFields, defineFieldSortOrder, defineTriggers, resolveTriggerReferences, defineGroupTriggers, createGroups, initialiseGroupFields, initialiseTriggers", "ioc/group.cpp: Group::operator[]", "ioc/field.cpp: Field::Field"]}
{"id": "C68", "title": "A group put writes just the fields the client sent, in put order, where that client may write", "statement": "For every group and every put: only fields which are marked in the sent value, have a record and a +putorder are written, each at most once and in increasing +putorder, with the value sent for that field; a field is written only if the client may write its record; success is reported only when all of them have been written; an atomic put holds the locks of all the group's records from the first write to the last; otherwise the record of a field is locked while it is written.", "quantifier": "all groups, sent values, permissions, faults of single records, atomic or not", "why_tests_cant": "all subsets of fields times all permissions", "anchors": ["ioc/groupsource.cpp: GroupSource::putGroup, putGroupField, onOp", "ioc/iocsource.cpp: IOCSource::put, doPreProcessing, doFieldPreProcessing, doPostProcessing", "ioc/securityclient.cpp: SecurityClient::canWrite"]}
{"id": "C69", "title": "A group subscription starts with a complete update and then loses no change", "statement": "For every order of database events after a subscription to a group has started: nothing is sent before every field has had its first value and (if its mapping has properties) its first property event; the first update then has all of the fields which events update; each later event with changes is sent at once, with the changed fields only; no change is sent twice and none is lost.", "quantifier": "all sequences of value and property events, starts and stops, all trigger graphs", "why_tests_cant": "all interleavings of events", "anchors": ["ioc/groupsource.cpp: subscriptionPost, subscriptionValueCallback, subscriptionPropertiesCallback, onSubscribe, onStartSubscription, onDisableSubscription", "ioc/fieldsubscriptionctx.h"]}
{"id": "C70", "title": "Names of group fields are understood as written", "statement": "A group field name is read as its dot separated parts, each with the index in brackets if there is one, and is printed as it was written; a name which is not of this form is refused.", "quantifier": "all texts", "why_tests_cant": "unbounded texts", "anchors": ["ioc/fieldname.cpp: FieldName::FieldName, FieldName::to_string", "ioc/fieldnamecomponent.h"]}
{"id": "C71", "title": "A channel in use is never forgotten, nor are its operations", "statement": "After any history of connections made, validated, lost or closed, channels created, refused or destroyed by servers, and operations started and cancelled, each channel the application uses is searched for, or waits for a connection which is open or about to be opened, or has been asked of a server on an open connection, or is connected; so that replies of servers can always connect it. Each operation which was started and has not ended either waits for its channel or has been asked of the server on the connection the channel has now.", "quantifier": "all histories of network events, server messages and API calls, any number of channels, connections, operations, name servers", "why_tests_cant": "all interleavings of losses and replies", "anchors": ["src/client.cpp: Channel::build, Channel::disconnect, Channel::createOperations, procSearchReply", "src/clientconn.cpp: Connection::build, createChannels, cleanup, handle_CREATE_CHANNEL, handle_DESTROY_CHANNEL, tickEcho"]}
{"id": "C72", "title": "One connection for each server, and none after close()", "statement": "At any time a client has at most one connection, open or being opened, to each server address; after close() of the client none is open.", "quantifier": "all histories of network events, server messages and API calls", "why_tests_cant": "depends on the order in which objects go away", "anchors": ["src/clientconn.cpp: Connection::~Connection, Connection::build, cleanup", "src/client.cpp: ContextImpl::close, connByAddr"]}
{"id": "C73", "title": "Name servers are connected to again", "statement": "Whatever happened to the connection to a configured name server, the next periodic check leaves each name server with a connection which is open or about to be opened.", "quantifier": "all histories; any list of name servers", "why_tests_cant": "all ways in which a connection ends", "anchors": ["src/client.cpp: ContextImpl::onNSCheck, startNS", "src/conn.cpp: ConnBase::bevEvent, bevRead, disconnect"]}
{"id": "C74", "title": "A server knows who its client is", "statement": "A client offered the method \"ca\" selects it and presents its user name, and the server then reports exactly this name as the account of the client; after any sequence of handshakes a client is who its last handshake says, and a client which presents no account is anonymous.", "quantifier": "all user names; all lists of offered methods; all sequences of handshakes with any methods and presented values; both byte orders; all truncations", "why_tests_cant": "all values presented, sequences of handshakes and truncated messages", "anchors": ["src/clientconn.cpp: Connection::handle_CONNECTION_VALIDATION", "src/serverconn.cpp: ServerConn::ServerConn, handle_CONNECTION_VALIDATION", "src/pvxs/source.h: ClientCredentials"]}
{"id": "C75", "title": "Access rules of an IOC see the client's own names", "statement": "The names under which the access rules of an IOC consider a client are its account and one role for each group of the operating system its account is in, all of them however many, and its host is its address; a write is allowed exactly if a rule allows it for one of these names.", "quantifier": "all accounts; all group databases of any size; all access rules; all client addresses", "why_tests_cant": "all group databases and accounts", "anchors": ["src/osgroups.cpp: osdGetRoles", "ioc/credentials.cpp: Credentials::Credentials", "ioc/securityclient.cpp: SecurityClient::update, canWrite"]}
{"id": "C76", "title": "A put to a record of an IOC", "statement": "A put changes a record only if the record accepts changes and its client may write; then exactly the value which was sent is written, once, the record is processed as the client asks, with block=true the reply comes when processing has ended, and every put is replied to exactly once, telling whether it was done. A put which sends no value changes none.", "quantifier": "all options, access rules and states of a record; all sequences of puts by one client interleaved with the callbacks of the database", "why_tests_cant": "all interleavings of puts and callbacks, and all states of a record", "anchors": ["ioc/singlesource.cpp: onOp, putCallback, doneCallback", "ioc/iocsource.cpp: IOCSource::put, doPreProcessing, doFieldPreProcessing, doPostProcessing, setForceProcessingFlag"]}
{"id": "C77", "title": "Reading a record of an IOC", "statement": "A get reports the value, alarm, time and properties a record has; a subscription begins with an update which holds all of them, and then what a client knows from the updates follows the record, event by event, for the events it asked for; a get and a subscription report the same of the same record.", "quantifier": "all records; all sequences of database events with any masks; all DBE options; all widths of the time tag", "why_tests_cant": "all sequences of events and all masks", "anchors": ["ioc/iocsource.cpp: IOCSource::get, getTimeAlarm", "ioc/singlesource.cpp: onSubscribe, subscriptionCallback, singleGet", "ioc/typeutils.cpp: MappingInfo::updateNsecMask"]}
{"id": "C78", "title": "Waiting for the result of an operation", "statement": "wait() returns the first result of the operation, or reports that it was interrupted, and never anything else; every thread which waits is let go once there is a result, without waiting for its timeout; a timeout is only reported while there is no result.", "quantifier": "all interleavings of any number of threads which wait, are woken or time out with results and interrupts", "why_tests_cant": "all interleavings of threads", "anchors": ["src/client.cpp: ResultWaiter::wait, ResultWaiter::complete, OperationBase::wait, OperationBase::interrupt"]}
{"id": "C79", "title": "A put built with set() sends just the values given", "statement": "A put which is built with set(name, value, required) sends exactly the fields which were named, each with the value given converted to the type of the field, whatever the order of the calls; other fields are not marked. If a required value has no field, or its field cannot hold it, nothing is sent and the operation reports an error; an optional value which does not fit is left out. A second value for one name is refused.", "quantifier": "all prototypes a server can offer; all lists of calls, in any order", "why_tests_cant": "all types and all sets of names", "anchors": ["src/clientget.cpp: PRBase::Args::build, PRBase::_set", "src/data.cpp: Value::copyIn, Value::traverse", "src/pvxs/client.h: PutBuilder::set"]}
{"id": "C80", "title": "A definition of a type describes the type, and can be extended", "statement": "TypeDef(value) made from a value, or from any field of one, creates values of exactly the type of this value or field. def += members leaves each old member in its place, appends the members with new names in their order, and where a name is already there takes the new code, the new id if there is one, and merges the members; where that would turn a Compound member into another kind or back the call is refused and the type is as before. Every definition accepted by the constructors can be created. as(code, name) gives a member with the id and the members of the definition, and is refused just if one of the two codes is Compound and the other not.", "quantifier": "all definitions of types, all fields, all lists of added members", "why_tests_cant": "all trees of members, of any depth and width", "anchors": ["src/type.cpp: Member::Helper::copy_tree, TypeDef::TypeDef(const Value&), TypeDef::_append, TypeDef::_append_start, TypeDef::as", "src/pvxs/data.h: TypeDef::operator+="]}
{"id": "C81", "title": "An array taken as an array of another element type has the same numbers", "statement": "Assigning an array to a field which is an array of another element type, or reading an array field as an array of another element type, gives as many elements in the same order, each the number it was: an integer the destination can hold unchanged, else modulo two to its number of bits; an integer as a real the nearest real, exact when the mantissa has enough bits; a real as an integer with its fraction dropped; a float as a double the same number, a double as a float the nearest float; numbers as their decimal text and text as the number it says. What can not be converted is refused as a whole, with NoConvert, and an attempt (tryFrom) then says no.", "quantifier": "every pair of element types, every array of any length and content, assigned and read, alone and as a field of a structure or a choice of an Union", "why_tests_cant": "There are 144 pairs of element types and 2^64 values of an element; the mistakes are at the edges (sign bit, half way between two reals, the text of a value above 127), in one pair of types out of many.", "anchors": ["src/sharedarray.cpp: convertArr, convertCast, convertToStr, convertFromStr, copyAs", "src/utilpvt.h: promote_print", "src/pvxs/sharedArray.h: convertTo, thaw", "src/data.cpp: Value::copyIn, Value::tryCopyIn"]}
{"id": "C82", "title": "The names a server lists are those it has", "statement": "A PV which is added to a StaticSource, or with Server::addPV(), is found by searches, by clients which connect, and in lists, under its name and from then on until it is removed; a name which is taken is refused, and remove() closes the PV. Each call of the PV \"server\" is answered exactly once: op=channels with exactly the names which the sources of the server list, each once and in order; op=info with the implementation and its version; help with a text; anything else with an error. This holds from any thread.", "quantifier": "every history of add(), remove() and onList(), every set of sources, every type and value of the arguments, every schedule of threads", "why_tests_cant": "A stale list shows after a particular order of adding, removing and listing; a call which is never answered only shows as a client which waits, for some shape of the arguments; a data race for some schedule.", "anchors": ["src/serversource.cpp: ServerSource::onCreate", "src/sharedpv.cpp: StaticSource, StaticSource::Impl", "src/server.cpp: Server::addPV, Server::removePV", "src/serverget.cpp: ServerConn::handle_GPR, ServerGPRExec"]}
{"id": "C83", "title": "Numbers with a fraction convert to the nearest value", "statement": "Reading a field as a double, or assigning to a Float64 or Float32 field, gives the nearest double or float to the number assigned, exactly it if it can be represented. Reading a double as an integer, or assigning it to an integer field, drops the fraction and keeps the low bits which fit the field; one out of range of 64 bits is refused. Read as a boolean, a double tells whether it is not zero. Its text stands for the nearest decimal number with six significant digits, so for exactly the number if it is whole and has at most six digits.", "quantifier": "every scalar field content, every double (including infinities, not-a-number, denormals), every field type", "why_tests_cant": "there are 2^64 doubles and 2^64 integers; rounding faults (double rounding, ties, carries of the sixth digit) show only at rare ones", "anchors": ["src/data.cpp: Value::copyOut, copyOutScalar", "src/data.cpp: Value::copyIn, copyInScalar", "src/utilpvt.h: SB"]}
{"id": "C84", "title": "info() reports the type the server sent, once", "statement": "The result callback of an info() operation is called at most once: when the server's answer to the present request arrives, with a Value of the type the server answered with, or with its error text. Each time the channel is connected the server is asked once, until there is a result. After cancel(), or when the Operation was dropped, nothing is called or asked; cancel() returns true exactly when there was no result yet. Every type which can be defined can be reported.", "quantifier": "every history of connects, disconnects, messages with any content, cancel and drop; every type definition, byte order and error text", "why_tests_cant": "the callback must not be called twice, late, or with the answer to an older request, for any order of events; all types must arrive unchanged", "anchors": ["src/clientintrospect.cpp: InfoOp, Connection::handle_GET_FIELD, GetBuilder::_exec_info", "src/serverintrospect.cpp: ServerIntrospect::doReply", "src/client.cpp: Channel::createOperations, Channel::disconnect", "src/dataencode.cpp: from_wire_type"]}
{"id": "C85", "title": "connect() tells the state of the channel, each change once, in order, until released", "statement": "The callbacks of a Connect made with Context::connect() are called with the state of the channel found first, then once for every change of it, in order (so onConnect and onDisconnect alternate), until the Connect is released, after which none is called; connected() is the state last told. This holds whatever the callbacks do: they may throw, release Connects, or make new ones. A Connect whose channel cannot be made (invalid server(), closed Context) can be released like any other. name() gives the PV name at any time.", "quantifier": "every number of Connects of a channel, every order of exec(), release, worker progress, connection and disconnection, every combination of callbacks given, and everything a callback does to the Connects of the channel", "why_tests_cant": "the order of user threads, the worker queue and the network is not under a test's control, and the failures need a callback doing something particular at one point of a loop", "anchors": ["src/client.cpp ConnectBuilder::exec", "src/client.cpp Channel::disconnect", "src/clientconn.cpp Connection::handle_CREATE_CHANNEL", "src/client.cpp OperationBase::name", "src/pvxs/client.h Connect, ConnectBuilder"]}
{"id": "C86", "title": "PVA output links deliver the last value written, with the processing asked for, and complete the record", "statement": "Records write through the PVA output links of one target PV, and process forward links to it. For every history: what is sent for a link is a subsequence of what was written to it, so nothing is made up, reordered or sent twice. As long as the connection lasts and the server accepts: once the PUT in progress is answered, the last value sent for a link without `defer` is the last one written to it while it was connected (or with `retry`); each PUT asks for processing iff one of the values it carries comes from a link with PP or a forward link was processed, refuses it iff otherwise one comes from a NPP link; and every record which waits for the completion of its write is completed. With `retry` the most recent incomplete PUT is made again on reconnect. A record can be processed at any time without blocking forever.", "quantifier": "all lists of links with any options, all values, all interleavings of writes, forward links, client callbacks, answers, losses of connection and completions", "why_tests_cant": "the outcome depends on the interleaving of record threads, the client worker and the link worker; tests run a few sequential writes against a server which answers at once", "anchors": ["ioc/pvalink_channel.cpp: pvaLinkChannel::put, linkBuildPut, linkPutDone, pvaLinkChannel::AfterPut::run, pvaLinkChannel::run", "ioc/pvalink_lset.cpp: pvaPutValueX, pvaPutValueAsync, pvaScanForward", "ioc/pvalink_link.cpp: pvaLink::valid, pvaLink::onDisconnect", "src/clientget.cpp: gpr_setup, GPROp::sendReply", "documentation/pvalink.rst: retry, defer"]}
{"id": "C87", "title": "Each update of the target of PVA input links is followed by processing of the records which ask for it, with this update", "statement": "For any number of input links (CP, CPP or neither) which share a PVA target, attached and removed at any time, and any sequence of updates, disconnects and errors delivered by the subscription, in any interleaving with the worker thread: no wake-up of the worker is lost; once it has caught up, the linked records were processed exactly once per delivered item, in the order of delivery, and while they were they read the cache right after this item (not a later one); processed are exactly the records of the links then attached with CP, or with CPP and SCAN passive (or RPRO is set if the record is active), in order of monorder; a link attached while connected has its record processed at once.", "quantifier": "all sequences of subscription items, link attach and removal, and worker steps; all link options, record states and update contents", "why_tests_cant": "Whether a wake-up can be lost or an update skipped depends on how arrivals interleave with the worker's emptying of the queue.", "anchors": ["ioc/pvalink_channel.cpp pvaLinkChannel::run, open, ScanTrack::scan, LinkSort", "ioc/pvalink_link.cpp pvaLink::scanOnUpdate, valid", "ioc/pvalink_lset.cpp pvaOpenLink", "src/clientmon.cpp SubscriptionImpl::doPop, wake-up", "documentation/pvalink.rst monorder"]}
{"id": "C88", "title": "A record which reads through a PVA input link gets value, alarm and time of the same, most recent, update", "statement": "For any sequence of updates and disconnects of the target, and any sequence of reads by the record, of any requested type and number of elements: a read which succeeds gives the value of the field of the most recent update, converted to the requested type as documented, and never more elements than asked for; the alarm and the time which the link reports after it are those of the same update; if the target is disconnected the read fails and the link reports an INVALID alarm.", "quantifier": "all histories of updates, disconnects and reads; all values, requested types, element counts and link options", "why_tests_cant": "Which parts of an update are cached across reads, type changes and disconnects depends on the history; conversions range over all values.", "anchors": ["ioc/pvalink_lset.cpp pvaGetValue, pvaGetAlarmMsg, pvaGetTimeStampTag, pvaGetDBFtype", "ioc/pvalink_link.cpp pvaLink::getSubField, onTypeChange, onDisconnect", "ioc/pvalink_channel.cpp pvaLinkChannel::run", "documentation/pvalink.rst"]}
{"id": "C89", "title": "The options of a PVA link are those written in its JSON text, as documented", "statement": "For every JSON text of a link, with its members in any order, repeated, unknown or nested to any depth: each documented option has the value of the last member which gives it a documented value, and its documented default if there is none; unknown members and members of maps inside the map change no option; a plain string is the name of the target.", "quantifier": "all JSON values built from null, booleans, integers, strings and maps of any size and depth", "why_tests_cant": "The parser keeps its position in two variables while it is called back for each token; nesting and order of members are unbounded.", "anchors": ["ioc/pvalink_jlif.cpp pva_parse_null, pva_parse_bool, pva_parse_integer, pva_parse_string, pva_parse_start_map, pva_parse_key_map, pva_parse_end_map", "ioc/pvalink.h pvaLinkConfig", "documentation/pvalink.rst"]}
{"id": "C90", "title": "Text given for a real is read as the nearest real, other text is refused", "statement": "A string assigned to a field of type Float64 (or read as a double, or converted as an element of an array) which is, up to blanks, a sign and an exponent, a decimal or hexadecimal number is stored as the double nearest to that number, of two the even one; a number too large for a double and text which is no number are refused with NoConvert and nothing is stored; \"inf\" and \"nan\" are accepted in any case. The text written for a double is read as a double within one part in 100000 of it, which is written as the same text.", "quantifier": "all strings, all doubles", "why_tests_cant": "strings of any length with any exponent; rounding at every boundary between two doubles", "anchors": ["src/util.cpp: parseTo<double>", "src/data.cpp: Value::copyIn, Value::copyOut", "src/sharedarray.cpp: convertArr", "src/utilpvt.h: SB"]}
{"id": "C65", "title": "A configuration written out and applied again is the same configuration", "statement": "applyDefs() of what updateDefs() wrote restores ports, flags, address lists and the inactivity timeout of a client or server configuration.", "quantifier": "all configurations", "why_tests_cant": "lists of any length, all port numbers", "anchors": ["src/config.cpp: Config::updateDefs, Config::applyDefs, split_addr_into, join_addr, parse_timeout, tmoScale"]}
{"id": "C91", "title": "A get of a group shows all members, as they were at one instant if it is atomic", "statement": "A get of a group is answered once, with the values of all members or with an error, and the error comes only if some member could not be read. If the get is atomic (as the request says, or else the group's definition) there is one instant during the get at which all members were as the reply shows them; else there is such an instant for each member, the same one for its value, alarm and properties. Constant members are always part of the reply. The reply says whether it was atomic. Nothing stays locked.", "quantifier": "all groups, all mappings, all schedules of writes to the records by other threads, all failures of reads, all requests", "why_tests_cant": "depends on when other threads write between the reads", "anchors": ["ioc/groupsource.cpp: GroupSource::get, getGroupField", "ioc/iocsource.cpp: IOCSource::initialize, IOCSource::get", "ioc/dblocker.h", "ioc/dbmanylocker.h"]}
{"id": "C92", "title": "discover() tells each listener of every server which comes or goes, until it is cancelled", "statement": "While an operation of Context::discover() is in place, its callback is called once for every server found or lost, in order, whatever other listeners do (also if one throws), whichever internal thread finds the server. Once cancel() has returned, or the operation has been released, the callback is not running and is not called again. A callback may cancel its operation. With pingAll(true) all servers which answer are reported.", "quantifier": "Every history of exec, cancel and release of any number of operations, interleaved in any way with events found by the thread which receives beacons and by the worker of the client, and every behaviour of the callbacks.", "why_tests_cant": "Two threads report events and one of them changes the list of listeners; the outcome depends on the schedule, and what a listener is told depends on the whole history of the others.", "anchors": ["src/clientdiscover.cpp: Discovery::cancel, DiscoverBuilder::exec, ContextImpl::serverEvent", "src/client.cpp: ContextImpl::onBeacon, tickBeaconClean, procSearchReply", "src/pvxs/client.h: DiscoverBuilder, Discovered"]}
{"id": "C93", "title": "A client which reads slowly holds up only itself, and gets everything once it reads", "statement": "While a client does not read, what waits for it on the server is bounded: updates of its subscriptions stay in their queues (where they are merged) and no more of its requests are read. When it reads again, without any further event everything which was held back is sent, the last update of every subscription included, in order, and its requests are read again.", "quantifier": "Every history of posts to any number of subscriptions of a connection, batches of requests, writes of any size accepted by the socket, and callbacks of the event loop in any order.", "why_tests_cant": "Whether something is held back for ever depends on the order of callbacks, water marks and posts from other threads; a test sees a few schedules with a fast peer.", "anchors": ["src/serverconn.cpp: ServerConn::bevRead, ServerConn::bevWrite", "src/servermon.cpp: MonitorOp::maybeReply, MonitorOp::doReply", "src/conn.cpp: ConnBase::bevRead"]}
{"id": "C94", "title": "Group definitions are read as they are written, or rejected", "statement": "When an IOC starts, the group definitions in info(Q:group, ...) of its records and in its JSON files are read. For definitions which follow the documented schema the recorded groups are exactly those written: every group and field which has an option is there and no other, and of each option (+atomic, +id, +type, +channel, +trigger, +putorder, +const) the last value counts, also when the parts come from several records and files. A channel named in a record is a field of this record. Keys which are not known are reported, for the record which has them. A definition which is not as documented is reported, changes nothing else, and never ends the IOC.", "quantifier": "every list of records and files with definitions, every JSON value in them", "why_tests_cant": "The input is any JSON text, split over any number of records and files; tests try a few well formed ones, and the error paths depend on which value comes last in an object.", "anchors": ["ioc/groupconfigprocessor.cpp: loadConfigFromDb, loadConfigFiles, parseConfigString, yajlProcess, parserCallbackKey, parserCallbackStartBlock, parserCallbackEndBlock", "ioc/groupprocessorcontext.cpp: GroupProcessorContext::assign", "documentation/qgroup.rst", "documentation/qsrv2-schema-0.json"]}
{"id": "C95", "title": "dbLoadGroup() adds and removes files with group definitions", "statement": "The files read when the IOC starts are those given to dbLoadGroup(), as a call or as a command of the IOC shell, which were neither removed (\"-file\", \"-*\") nor given once more with the same macros later, in the order in which they were given; their groups, with those of the records, are the groups of the IOC. A file which can not be opened is reported and changes nothing.", "quantifier": "every sequence of calls and commands, all names, macros and contents", "why_tests_cant": "The result depends on the whole history of loads and removals before iocInit; the tests call the function but never the command.", "anchors": ["ioc/groupsourcehooks.cpp: dbLoadGroup, dbLoadGroupCmd, processGroups", "ioc/groupconfigprocessor.cpp: loadConfigFiles", "ioc/group.h: IOCGroupConfig::JFile"]}
{"id": "C96", "title": "The value of a record, put and read", "statement": "A value which a client puts to a record of an IOC is the value the record then holds, and the value which is then read; a value which the field can not hold is refused. What a record holds, whoever wrote it, is what is read.", "quantifier": "all types of fields, numbers of elements and sizes; all contents of a field; all values", "why_tests_cant": "all values of all types, all lengths of strings and arrays relative to what a field can hold", "anchors": ["ioc/iocsource.cpp: getScalarValue, getArrayValue, putScalar, putLongString, putStringArray, putArray, IOCSource::put, IOCSource::getChannelValueType", "ioc/channel.cpp: Channel::Channel", "ioc/typeutils.cpp: fromDbrType", "ioc/singlesource.cpp: getValuePrototype"]}
{"id": "C97", "title": "The builders of normative types give the fields of the normative type", "statement": "nt::NTScalar{...}.build() gives, for every type code and every combination of display, control, valueAlarm and form, a definition with the id epics:nt/NTScalar:1.0 or NTScalarArray and exactly the documented fields in order, limits having the type of one element and being absent for types which are not numbers; it throws for every type which is not a scalar or array of scalars. NTEnum, NTTable, NTURI and NTNDArray give the fields of their normative types; a table has one array per column in the order in which columns were added, and its labels are the given ones, or the names of the columns. No call of a builder ends the program.", "quantifier": "every type code, every combination of options, every list of columns or query arguments", "why_tests_cant": "the tests build a handful of combinations; 256 codes with 16 combinations of options, and lists of columns of any length, are not enumerable by examples, and neither are names of columns", "anchors": ["src/nt.cpp: NTScalar::build, NTEnum::build, NTTable::add_column, NTTable::build, NTTable::create, NTNDArray::build, NTURI::NTURI", "src/pvxs/nt.h"]}
{"id": "C98", "title": "The type of a group PV has exactly the fields its mappings call for", "statement": "For every group whose mappings do not disagree on what a field is, the type of the PV is a structure with the configured id; its fields are record._options.queueSize and record._options.atomic, and those which the mappings call for: the field of a mapping is at its path, below structures (arrays of structures for components with an index), and is the NTScalar, NTScalarArray or NTEnum of the channel (scalar), the type of the value (plain), a variant (any), alarm and timeStamp (meta), a structure with the id (structure), or the type of the constant (const). Where several mappings call for the same field, the last decides the type, and the last given id is kept.", "quantifier": "every list of mappings, paths of any length, every type of channel", "why_tests_cant": "tests load a few databases with a few groups; which combination of mappings share structures, in which order, and how deep, is unbounded", "anchors": ["ioc/groupconfigprocessor.cpp: initialiseValueTemplate, addTemplatesForDefinedFields, addMembersForScalarType, addMembersForPlainType, addMembersForAnyType, addMembersForStructureType, addMembersForMetaData, getTypeDefForChannel, setFieldTypeDefinition", "ioc/field.cpp: Field::Field", "ioc/iocsource.cpp: getChannelValueType"]}
{"id": "C99", "title": "A value printed lists its fields by names which find them, and shows their content", "statement": "Printing a Value in delta format gives one line for each field which is marked or inside of a marked structure, including fields of what a Union, Any or array holds, and no other: the line starts with an expression which, given to operator[], finds this field, followed by its type and content; fields of one structure come in order of declaration, each once. Content never breaks a line. Two fields of the same type which print alike have the same content (scalars other than reals), in delta and in tree format. Array output is cut after arrayLimit() elements.", "quantifier": "all values: any type, any nesting of Unions, Anys and arrays, any marks, any content including strings of arbitrary bytes; any limit", "why_tests_cant": "The print-out depends on the type, on every combination of marks and on the content of every field at any depth; a test compares the output for a few values, and the names of choices come out right for all types in which no structure precedes another choice of a Union.", "anchors": ["src/datafmt.cpp: FmtDelta::top, FmtDelta::field, FmtTree::show, FmtTree::show_value, operator<<", "src/sharedarray.cpp: showArr, operator<<(Limiter)", "src/pvxs/data.h: Value::Fmt, Value::format", "src/util.cpp: escape"]}
{"id": "C100", "title": "A remote procedure call sends the arguments which were given", "statement": "rpc(name).arg(n1, v1).arg(n2, v2)....exec() sends an NTURI whose path is the name of the PV and whose query has exactly one field for each argument, in the order of the calls of arg(), with the name, the type and the whole content of the argument, whatever that is: number, text, array, structure, union, array of values. A second argument of the same name is refused. An argument which can not be sent is refused by arg(). A value given to rpc(name, value) and arguments given to arg() are both sent or refused. NTURI({members}).call(a, b, ...) gives an NTURI whose query holds the arguments in the order of the members, and refuses more arguments than members.", "quantifier": "all names, all lists of arguments, all types and contents of arguments, any marks in a structure given as argument", "why_tests_cant": "The query is a type made at run time from the types of the arguments, and the assignment to its fields depends on the type, nesting and marks of each; a test calls with a few numbers and texts, for which all is well.", "anchors": ["src/clientget.cpp: RPCBuilder::exec, detail::PRBase::Args, CommonBase::_set", "src/pvxs/client.h: RPCBuilder::arg, Context::rpc", "src/pvxs/nt.h: NTURI::call", "src/pvxs/data.h: impl::Helper::build"]}
{"id": "C101", "title": "A server can be reached where it says", "statement": "A server which has been started accepts connections on every address it stands for (each address in its list of interfaces; all addresses of the host for a wildcard), with the one TCP port which it names in its answers to searches and which Server::config() and Server::clientConfig() return; that port is never zero. If the TCP port which was asked for is free it is used; if it is taken another one is chosen and the server starts all the same. All sockets for searches use the UDP port which Server::config() returns: the one asked for, or one which was chosen if that was zero.", "quantifier": "every configuration, every set of interfaces of the host, every set of addresses and ports already used by other programs, with and without IPv6", "why_tests_cant": "Tests use one loopback interface with port zero. Whether all interfaces get the port depends on the list of interfaces, where it comes from, and on which ports other programs use on which interfaces.", "anchors": ["src/server.cpp Server::Pvt::Pvt, Server::config, Server::clientConfig", "src/serverconn.cpp ServIface::ServIface", "src/evhelper.cpp evsocket::bind", "src/config.cpp Config::fromDefs, Config::expand", "documentation/server.rst"]}
{"id": "C102", "title": "Limits, precision, units and alarm message through a PVA link are those of the target", "statement": "A record which asks a PVA input link for control, display or alarm limits, precision, units, or the alarm message, gets those of the most recent update of the target: the limits as the nearest double, the precision, as many characters of the units and of the message as there is room for. If the target has no such field, or is not connected, the record is told so.", "quantifier": "every type and content of the target, every size of buffer, every content of the caller's memory", "why_tests_cant": "The fields are looked up by name in a type which the peer chooses, and converted; the caller's memory before the call and the room for text range over all values.", "anchors": ["ioc/pvalink_lset.cpp pvaGetControlLimits, pvaGetGraphicLimits, pvaGetAlarmLimits, pvaGetPrecision, pvaGetUnits, pvaGetAlarmMsg", "ioc/pvalink_link.cpp pvaLink::onTypeChange", "src/pvxs/data.h Value::as"]}
{"id": "C103", "title": "The multicast shim sends on what it receives", "statement": "The tool mshim sends each search and each beacon which it receives to each of its destinations, so that whoever receives it there sees the same search (identifier, whether a reply is wanted, address to reply to, protocols, names with their identifiers) or the same beacon (GUID, server, protocol), with the address of the original sender; to a single host it is marked so that the host passes it on to all of its processes.  No packet ends the tool, and its documented options are accepted.", "quantifier": "all packets received, all senders and destinations, all lists of destinations to forward to, all outcomes of sending, all receivers of what was sent, all command lines", "why_tests_cant": "there are no tests of this tool; the content of packets, and what other hosts make of what is forwarded, ranges over unboundedly many cases", "anchors": ["tools/mshim.cpp App::onSearch, App::onBeacon, main", "src/udp_collector.cpp UDPCollector::process_one, forwardM"]}
{"id": "C104", "title": "A client searches where it is configured to", "statement": "A client context sends each search once to every address of its address list (with the configured UDP port where the entry has none, and the broadcast addresses of this host if the automatic list is on) and once, over TCP, to each connected name server; a datagram is marked as unicast exactly if its destination is a single host; entries which can not be read are ignored, name servers included, and never prevent the context from being created; beacons are received on every configured interface at the configured UDP port, for IPv4 and IPv6.", "quantifier": "all configurations, all answers of the resolver and the host's interfaces, all search packets", "why_tests_cant": "depends on the interfaces of the host and the texts of the configuration; a wrong unicast mark only shows as duplicated traffic between other hosts", "anchors": ["src/client.cpp: ContextImpl::ContextImpl, ContextImpl::startNS, ContextImpl::tickSearch", "src/clientconn.cpp: Connection::startConnecting", "src/config.cpp: Config::expand"]}
{"id": "C105", "title": "Statistics, room and flow control levels of a subscription", "statement": "For each subscription of a server: post() returns true exactly if a further update would be queued rather than combined with one which waits; the statistics report how many updates wait, the highest number which waited since the last reset, how many were combined with another one since then, the limit of the queue and what the client still allows for; the client acknowledges after the number, or the percentage of the queue, which record._options.ackAny asks for, half of the queue by default; and the application is told, each time the client acknowledges so that more than the high level set by setWatermarks() can be sent, and only then, with levels limited so that an acknowledgement of the client can exceed them.", "quantifier": "all histories of posts, acknowledgements, sends, resets of the statistics and changes of levels, all ackAny options and sizes of the queue", "why_tests_cant": "counters and levels depend on the interleaving of posts, sends and acknowledgements; a wrong statistic or a call which is missing shows only under load", "anchors": ["src/servermon.cpp: MonitorOp::doPost, MonitorControlOp::stats, MonitorControlOp::setWatermarks, ServerConn::handle_MONITOR", "src/clientmon.cpp: MonitorBuilder::exec", "src/pvxs/source.h: MonitorStat, MonitorControlOp"]}
{"id": "C106", "title": "pvxput and pvxcall send what their arguments say", "statement": "pvxput sends a put in which exactly the fields named by its arguments name=text are set and marked, each to the text after the first '=' converted to the type of the field; a single argument without '=' is the text for the field value; pvxcall sends an NTURI with the PV name as path and one String field per argument in its query, in their order.  An argument which does not name a field, or two for one field, or a text which can not be converted, is refused before anything is sent.  The exit status is 0 exactly if the server has done what was asked for.", "quantifier": "all lists of arguments, all types of the PV, all orders of answer, timeout and interruption", "why_tests_cant": "arguments are arbitrary texts and types; which of answer, timeout and signal comes first is a race", "anchors": ["tools/put.cpp: main", "tools/call.cpp: main", "src/util.cpp: SigInt"]}
{"id": "C107", "title": "What the library believes of the network interfaces of its host was true not long ago", "statement": "Whether an address belongs to an interface (which decides whether a datagram counts as local), whether it is a broadcast address, which name, number and address an interface has: a positive answer was true of the host at some moment within the last ten minutes, a negative one at some moment within the last ten seconds, however the interfaces come and go and whatever is asked in which order. The operating system is not asked more often than once in ten seconds, whoever sends datagrams, as long as an interface is up. The list of external interfaces leaves out the loopback interface.", "quantifier": "all histories of the interfaces of a host (addresses, names, flags, failures of the operating system) and all sequences of questions at non-decreasing times", "why_tests_cant": "a test sees one host whose interfaces do not change during the test; the claim is about every history of interfaces and questions", "anchors": ["src/evhelper.cpp:IfaceMap::refresh", "src/evhelper.cpp:try_cache", "src/evhelper.cpp:IfaceMap::is_iface", "src/evhelper.cpp:IfaceMap::is_broadcast", "src/evhelper.cpp:IfaceMap::address_of", "src/evhelper.cpp:IfaceMap::all_external", "src/os/default/osdSockExt.cpp:IfaceMap::_refresh", "src/udp_collector.cpp:UDPCollector::handle_one"]}
{"id": "C108", "title": "A printed type can be told from its text", "statement": "The text which a type definition prints, and the text which the type of a value prints (what pvxinfo shows), determine the type: two types with the same text have the same codes, names and IDs, in the same order, at every depth, whatever the names and IDs are; and text printed before or after does not change this. Printing never fails.", "quantifier": "all pairs of type definitions which the library accepts, all indentations, all surrounding text", "why_tests_cant": "a test compares the text of a few types with the expected text; that no two of the infinitely many types share a text cannot be seen from any number of them", "anchors": ["src/type.cpp:show_Node", "src/type.cpp:operator<<(std::ostream&, const TypeDef&)", "src/datafmt.cpp:FmtTree", "src/data.cpp:Value::nameOf", "tools/info.cpp"]}
{"id": "C109", "title": "A connection is kept while both sides are alive, and given up soon after one is not", "statement": "Whatever timeouts are configured on the two sides: as long as both sides run and messages are delivered promptly, an established connection is not closed for inactivity, however long nothing is read or written by applications. If a side hears nothing from the other for its timeout it closes the connection at that time, and neither much later nor never; if a side closes the connection, the other closes it too. An attempt to connect ends within the timeout, and after a lost connection the next attempt begins two seconds later; nothing is sent before the connection is made.", "quantifier": "all configured timeouts on both sides, all delays of the network and of timers within a bound, all sequences of sends, deliveries and timer events", "why_tests_cant": "the periods are tens of seconds and the claim is about every interleaving of timers, deliveries and traffic for an unlimited time; a test observes one idle minute with one pair of settings", "anchors": ["src/clientconn.cpp:Connection::tickEcho", "src/clientconn.cpp:Connection::bevEvent", "src/clientconn.cpp:Connection::startConnecting", "src/serverconn.cpp:ServerConn::handle_ECHO", "src/serverconn.cpp:ServerConn::ServerConn", "src/conn.cpp:ConnBase::bevEvent", "src/config.cpp:enforceTimeout"]}
{"id": "C110", "title": "The documented work queue loses no event and never blocks", "statement": "A program which handles its subscriptions as the documentation of Context::monitor() shows (the event callback pushes the subscription on a MPMCFIFO with one place per subscription and one more; one thread takes a subscription, calls pop() once, and pushes it again unless its queue was empty), as pvxmonitor does: every event of every subscription is handled once and in order, none waits while the thread sleeps, no push() ever blocks, no subscription starves another. pvxmonitor returns 0 when every PV finished, 2 when it was interrupted before; and it returns when nothing more can come.", "quantifier": "every number of subscriptions, every configuration of each, every interleaving of starting, messages, losses and returns of connections, callbacks, and the steps of the thread, one interruption", "why_tests_cant": "A lost wake-up or a full queue needs a particular interleaving of the worker between pop() and push() of the other thread; the interleavings of any number of subscriptions cannot be enumerated.", "anchors": ["src/pvxs/client.h: Context::monitor (documentation)", "tools/monitor.cpp: main", "src/clientmon.cpp: wantToNotify, doNotify, pop", "src/pvxs/util.h: MPMCFIFO"]}
{"id": "C111", "title": "pvxget, pvxinfo and pvxlist print each answer once, end when all are in, and tell by the exit status whether all was got", "statement": "For any number of names and in whatever order results, errors, a time out and an interrupt come: each value which arrives before the program ends is printed, once, and nothing else is printed as a value. The program ends as soon as there is an answer (a value or an error) for each name; the exit status is 0 if and only if each name gave a value, 1 if time ran out or a server reported an error, 2 if it was interrupted before. Without addresses pvxlist prints, of each server which is found, the address of one endpoint, and not again as long as that server is there.", "quantifier": "all numbers of names, all orders of results, errors, interrupts and time outs on two threads, all histories of servers which appear and vanish", "why_tests_cant": "The results come on another thread in any order, race with the signal handler and the time out, and the main thread looks at the counter afterwards; tests run the tools against one server with one name.", "anchors": ["tools/get.cpp: main", "tools/info.cpp: main", "tools/list.cpp: main", "src/clientget.cpp: GPROp::notify", "src/clientdiscover.cpp: ContextImpl::serverEvent"]}
{"id": "C112", "title": "What a peer sends bounds what it makes the receiver keep", "statement": "A receiver does not keep, or ask memory for, more than in proportion to the bytes which a peer has sent. A value which is accepted holds at most one scalar, array element or character for each byte read, whatever its type and nesting; a type description which is accepted has a number of nodes bounded by the number of its bytes; and no memory is asked for elements which have not arrived.", "quantifier": "every sequence of bytes, every type, every depth of nesting, every content of the cache of types, both byte orders", "why_tests_cant": "The excess needs particular nestings of definitions of, and references to, cached types, or sizes which no honest peer sends; a bound must hold for all sequences of bytes.", "anchors": ["src/dataencode.cpp: from_wire(Buffer&, TypeStore&, TypeDeserContext, FieldDesc), from_wire_field, from_wire_full, from_wire_type_value", "src/pvaproto.h: from_wire(Buffer&, shared_array)", "src/dataimpl.h: TypeStore, TypeDeserContext"]}
{"id": "C113", "title": "Each check of a test program is reported once, with its result", "statement": "Each check made with the public unit test helpers (testCase, testEq, testNotEq, testArrEq, testStrEq, testStrNotEq, testThrows, testThrowsMatch) is reported by exactly one test line, however the object is moved about and however many lines its message has. The line says that it passed if and only if the values are equal (or different), or what was expected was thrown. No failed check goes unreported.", "quantifier": "every history of creation, moves, assignments, changes of the result, messages and destruction of any number of test cases; all values compared; all ways in which the function under test ends", "why_tests_cant": "The helpers are what tests report with: a check which they lose leaves no trace in the output except for a count.", "anchors": ["src/pvxs/unittest.h: testCase, testEq, testNotEq, testArrEq, testThrows, testThrowsMatch", "src/unittest.cpp: testCase::testCase, testCase::operator=, testCase::~testCase, setPassMatch, _testStrTest"]}
{"id": "C114", "title": "pvxrefdiff shows what has changed, and dbpvar counts what there is", "statement": "The IOC shell command pvxrefdiff prints a line for a kind of object if and only if the number of such objects differs from that at the time of pvxrefsave, also if the kind is known only before or only after, and the line has the difference; kinds are printed once and in order. pvxrefshow prints the number of each kind of which there are any. The last line of dbpvar has the number of channels used by links of records which match the name, of those which are connected, and of those links.", "quantifier": "all sets of counters before and after; all sets of channels, links and names", "why_tests_cant": "The difference is found by walking two maps at once, where each order of common and missing keys is a different path.", "anchors": ["ioc/iochooks.cpp: pvxrefshow, pvxrefsave, pvxrefdiff", "ioc/pvalink.cpp: dbpvar"]}
{"id": "C115", "title": "The PVA server of an IOC serves while the IOC runs, if QSRV is enabled", "statement": "The PVA server of an IOC accepts clients if and only if the IOC is running, through every sequence of building, running, pausing, running again, shutting down, and building another IOC in the same process; no hook ends the process. Records and groups are served if and only if QSRV is enabled, that is unless QSRV 1 is loaded, or $EPICS_IOC_IGNORE_SERVERS has qsrv2, or $PVXS_QSRV_ENABLE is NO. ioc::server() gives the server or throws.", "quantifier": "every sequence of actions which EPICS Base allows; every value of the environment variables; every order of the steps of two threads", "why_tests_cant": "A test runs through one life of one IOC; the property is about every sequence of states and about a race of shutdown with other threads.", "anchors": ["ioc/iochooks.cpp: server, initialisePvxsServer, pvxsExitBeforeIocShutdown, pvxsExitAfterIocShutdown, pvxsInitHook, enable2, pvxsBaseRegistrar", "ioc/singlesourcehooks.cpp: addSingleSrc", "ioc/groupsourcehooks.cpp: addGroupSrc", "ioc/pvalink.cpp: linkGlobal_t::alloc, linkGlobal_t::init"]}
{"id": "C116", "title": "pvxvct shows what it was asked for, and nothing else", "statement": "The network trouble shooting program pvxvct shows a search if and only if searches are wanted (-C, or neither -C nor -S), its sender is one of the peers or networks given with -H, if any are, and it is for one of the names given with -P, if any are; a beacon if and only if beacons are wanted and its sender is let through. An address is in the network a.b.c.d/n if and only if its first n bits are those of a.b.c.d, for n from 0 to 32; other n are refused.", "quantifier": "all options, all networks and numbers of bits, all senders, all lists of names", "why_tests_cant": "There are 2^32 addresses and 33 lengths; the ends of the range of n are where shifts go wrong.", "anchors": ["tools/pvxvct.cpp: parsePeer, allowPeer, searchCB, beaconCB"]}
{"id": "C117", "title": "Statistics of a client subscription", "statement": "Each event (update or exception) which comes to a client subscription is exactly one of: delivered by pop(), waiting, or counted once as squashed by the client, in the current statistics or in those told by a call of stats() which reset them. Each update which the server says it combined is counted once as squashed by the server. With pipeline nothing is squashed by the client. The longest queue reported is at least what waits now, and at most the longest queue there was since the last reset. Reading the statistics has no effect, resetting them only on the counters.", "quantifier": "every configuration of a subscription, every history of connections, losses, messages, pops, pauses, cancellations and readings of the statistics, with and without reset", "why_tests_cant": "the counters are kept at several places of the message handler, under conditions on the state of the operation; the balance must hold after every history", "anchors": ["src/clientmon.cpp:SubscriptionImpl::stats", "src/clientmon.cpp:Connection::handle_MONITOR", "src/pvxs/client.h:SubscriptionStat"]}
{"id": "C118", "title": "Things initialised once", "statement": "However many threads ask for the one time initialisation of a part of the library, concurrently or later, its function is called at most once, and no request ends before it did. If it succeeds, all requests succeed. If it fails, the caller which ran it gets its exception and every other request, now or later, fails with an error, which a user can handle. Every request ends once the function has.", "quantifier": "every number of threads, every interleaving of their requests, every outcome of the function, including one which asks for itself again", "why_tests_cant": "the window in which two threads come first is small; the property is about all interleavings", "anchors": ["src/util.cpp:threadOnce_", "src/util.cpp:onceWrapper", "src/utilpvt.h:threadOnce"]}
{"id": "C119", "title": "Byte counters in reports", "statement": "Server::report() and Context::report() give for each connection the number of bytes sent and received since the counters were last reset: over a sequence of reports, what those which reset said and what the last one says add up to what was sent and received. The channels listed below a connection have together sent and received no more than the connection. A report without reset has no effect.", "quantifier": "every sequence of messages of any size, in one or more segments, of channels created and closed, of connections lost and made again, and of reports with and without reset", "why_tests_cant": "the counters of connections and channels are updated at a dozen places, and reset together; the sums must hold whenever a report comes in between", "anchors": ["src/server.cpp:Server::report", "src/client.cpp:Context::report", "src/conn.cpp:ConnBase::enqueueTxBody", "src/conn.cpp:ConnBase::bevRead"]}
{"id": "C120", "title": "A timer calls its callback at most once, and never after it was cancelled", "statement": "A timer made with ExecOp::timerOneShot() calls its callback at most once. cancel() returns true if and only if the callback was not called, and then it never is; it returns false if the callback was called. Once cancel() or the destructor of the handle have returned to a thread other than the worker the callback does not run and is not called any more; a thread which waits in cancel() for a running callback gets its result when that ends. A second cancel() throws. The callback is kept until it has returned, and an exception of it does not end the process.", "quantifier": "for every interleaving of creation, expiry, cancel(), destruction of the handle by any thread, the end of callbacks, and the stop of the server", "why_tests_cant": "the outcomes depend on the order of the expiry on the worker, the posted work of the user's thread and the stop of the server; tests see a few schedules", "anchors": ["src/evhelper.cpp: Timer::cancel, Timer::Pvt::cancel, expire_cb, Timer::Pvt::buildOneShot, Timer::Pvt::~Pvt", "src/evhelper.h: Timer::Pvt", "src/pvxs/util.h: Timer", "src/pvxs/srvcommon.h: ExecOp::timerOneShot", "src/serverget.cpp: _timerOneShot"]}
{"id": "C121", "title": "What is encoded is what is sent, however the buffer grows", "statement": "The bytes which are handed to the network for a message are those which the encoders wrote, in that order, whatever sizes of memory the output buffer gets and when; arrays which are written in pieces are the elements one after the other for every size of the pieces; what the buffer held before is kept (evbuffer) or overwritten (vector). If memory is refused the message is marked as bad and is a prefix which ends between two items. Skipping bytes to be filled in later advances by that many bytes.", "quantifier": "for every sequence of items, every array and element size, every content of the buffer before, and every sequence of answers to the requests for memory", "why_tests_cant": "the sizes of the blocks which libevent gives depend on its version, on what is in the buffer and on the platform; tests see one sequence of them, and no refusals", "anchors": ["src/evhelper.cpp: VectorOutBuf::refill, EvOutBuf::refill, EvOutBuf::~EvOutBuf", "src/pvaproto.h: Buffer::ensure, Buffer::skip, _to_wire, to_wire_str, to_wire(Buffer&, const shared_array<const void>&)"]}
{"id": "C122", "title": "A message can be logged by any logger at any level, and shows when, how important and from whom", "statement": "Logging a message touches no memory but its own buffer, whatever the name of the logger; the message begins with the time, the level and the name of the logger. Only a critical message ends the process, and only if $_PVXS_ABORT_ON_CRIT asks for it. A dump of bytes shows the first 64 of them, sixteen to a line after their offset, and says when there are more.", "quantifier": "for all names of loggers, levels, times, values of the variable, and buffers", "why_tests_cant": "names and buffers of every length; a write beyond the buffer need not be noticed by a test", "anchors": ["src/log.cpp: log_prep, _log_vprintf, logger_prepare, xerrlogHexPrintf", "src/pvxs/log.h: log_printf, log_exc_printf, log_hex_printf, DEFINE_LOGGER"]}
{"id": "C123", "title": "SIGINT and SIGTERM call the given function, once, in a thread", "statement": "While a SigInt object exists, SIGINT and SIGTERM lead to a call of the function given to it: at most once, in a thread, not before a signal came, and not after the destructor returned. At most one such object exists at a time, and once it is destroyed the previous actions of the signals are back, nothing is written to its sockets any more and another object can be made. Server::run() returns only when interrupt() was called or a signal came since an earlier run() returned.", "quantifier": "all sequences of constructions, destructions and signals, on any threads, with all interleavings of signal handlers, the worker thread and the destructor; all sequences of run(), interrupt() and signals", "why_tests_cant": "The failing cases need a signal handler to be stopped between two instructions while the destructor finishes on another thread; a test can not place a signal there, nor try all histories.", "anchors": ["src/util.cpp: SigInt, SigInt_handler, onsig", "src/pvxs/util.h: SigInt", "src/server.cpp: Server::run, Server::interrupt"]}
{"id": "C124", "title": "Counters of instances are exact", "statement": "instanceSnapshot() has, for each class of which an object was ever made, the number of objects which exist, whatever threads make and destroy objects at the same time, and never a number which wrapped around.", "quantifier": "all interleavings of constructors, destructors and snapshots of any number of objects and threads, with and without memory for the table", "why_tests_cant": "The counter is biased by one when a class is first seen; a snapshot must fall between two instructions of another thread to see this, which a test can not arrange.", "anchors": ["src/utilpvt.h: InstCounter", "src/util.cpp: registerICount, instanceSnapshot"]}
{"id": "C125", "title": "Scopes of indentation and of detail end as they began", "statement": "The indentation of a stream is the sum of the depths of the Indented objects which exist for it, and the level of detail is that of the innermost Detailed, for every stream on its own, whichever thread uses these first, whether objects are moved, and in whatever order they are destroyed; when all are gone the stream is as before.", "quantifier": "all sequences and interleavings of constructions, moves and destructions on any streams, by any threads, and all programs of nested scopes", "why_tests_cant": "The index of the stream storage is allocated by whichever thread is first, so all interleavings of first uses matter, and all nestings and orders of destruction.", "anchors": ["src/util.cpp: Indented, Detailed, operator<<(std::ostream&, const indent&)", "src/pvxs/util.h: Indented, Detailed"]}
{"id": "C126", "title": "Sockets are closed once, and multicast goes where it should", "statement": "Every socket which is opened is closed exactly once: not while an object owns it, at the latest when no object is left, and also when a constructor throws; moves, assignments and assignment of an object to itself neither lose nor share a socket. Every multicast search, beacon or forwarded search is sent with the time to live and through the interface of its own destination, whatever was sent before from the same socket.", "quantifier": "all sequences of constructions (with any system call failing), moves, assignments and destructions of any number of objects; all lists of destinations and all results of setsockopt()", "why_tests_cant": "Leaks and double closes depend on the order of moves and on which system call fails, and the options of a socket on the whole history of what was sent from it.", "anchors": ["src/evhelper.cpp: evsocket", "src/evhelper.cpp: evsocket::mcast_prep_sendto", "src/client.cpp: ContextImpl::tickSearch", "src/server.cpp: Server::Pvt::doBeacons"]}
{"id": "C127", "title": "A channel goes to the server which said that it has it", "statement": "A client sends the request for a channel to a server only because of a well-formed reply to a search which says that this server has this channel, over TCP, at the address and port which the reply gives (the sender where it gives none); the first such reply counts, later ones do not move a channel which is no longer searching but are reported if they are from another server; replies of servers to be ignored, replies which find nothing, truncated replies, bytes after the end of the message and all other datagrams change nothing. A server is reported to discoverers by a datagram only if it is an answer to a ping.", "quantifier": "all datagrams and messages of any content and length, all states of all channels, all lists of servers to ignore, all histories of replies, lost connections and new channels", "why_tests_cant": "Datagrams are arbitrary bytes from anywhere on the network, and what a reply does depends on the whole history of the channels it names.", "anchors": ["src/client.cpp: procSearchReply", "src/client.cpp: ContextImpl::onSearch", "src/client.cpp: Connection::handle_SEARCH_RESPONSE"]}
{"id": "C128", "title": "A channel for which the application gives the server stays with this server", "statement": "An operation made with server() of its builder uses a channel which is only ever requested from this server: it is not searched for and replies of other servers do not matter, through lost connections and refusals; until the context is closed the client keeps trying this server. Any other channel is requested only from servers which replied that they have it. Operations with the same name share a channel exactly if they give the same server, or none.", "quantifier": "all histories of new operations, replies, connections becoming ready or lost, servers accepting and refusing, searches, and close()", "why_tests_cant": "What happens depends on the order in which replies, refusals and disconnects arrive, for any number of channels.", "anchors": ["src/client.cpp: Channel::build", "src/client.cpp: Channel::disconnect", "src/clientconn.cpp: Connection::handle_CREATE_CHANNEL", "src/clientconn.cpp: Connection::createChannels"]}
{"id": "C129", "title": "A test which waits for a PVA link continues when the link is in the expected state", "statement": "testqsrvWaitForLinkConnected() returns only when the link is in the state it was called for, and the destructor of QSrvWaitForLinkUpdate only after the link had an update since the constructor; neither sleeps until its time limit, which aborts the test, although the state or the update has come, whatever the order of updates, looks and wake-ups.", "quantifier": "all interleavings of any number of waits, in any number of threads, with any number of updates of the link", "why_tests_cant": "A lost wake-up needs one particular interleaving of an update with the look and the wait of each thread.", "anchors": ["ioc/pvalink.cpp: testqsrvWaitForLinkConnected", "ioc/pvalink.cpp: QSrvWaitForLinkUpdate", "ioc/pvalink_channel.cpp: pvaLinkChannel::run"]}

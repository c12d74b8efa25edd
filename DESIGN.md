# Formal model of mdavidsaver/pvxs in Lean 4

## Layout

* `properties.jsonl` - the semantic properties (C01...).
* `lean/Verif/Model/*.lean` - the model: total, computable definitions.  Each carries a comment citing the file and lines of
  /repo it models and what was simplified.
* `lean/Verif/Spec/*.lean` - small specifications, written without the helpers of the model: grammars of messages and texts,
  what a history of events means, which fields a path names.
* `lean/Verif/Lemmas/*.lean` - lemmas which are no claims.
* `lean/Verif/Props/*.lean` - the property theorems.  Beside each an `example` meets its hypotheses with a concrete,
  non-trivial case.  Theorems named `..._partial` prove part of a property.  Where the code violates a property its negation is
  proved of a concrete run; these have other suffixes (`C72_two`, ...), and are listed with the property in MANIFEST.json.
* `MANIFEST.json` - property -> status, theorems, what is missing.
* `seeded/LOG.jsonl` - wrong programs: edits of the model, and the theorems which then fail.
* `AXIOMS.md` - the axioms of each claimed theorem (written by `tools/axioms.py`).
* `COVERAGE.md` - the lines of /repo cited by the model, file by file (written by `tools/cited.py`).
* `tools/mutate.py` - makes the edits in a scratch copy and rebuilds; `tools/claim.py` - edits MANIFEST.json.

## Trusted base

* The kernel of Lean 4.33.0.
* Axioms: at most `propext`, `Classical.choice` and `Quot.sound`, for each theorem as listed in AXIOMS.md.  There are no axioms
  of our own, no unproved goals and nothing which rests on compiled evaluation.
* Mathlib: only `Lemmas/ConfigTime` imports it (ordered fields, `linarith`, `norm_num`, `field_simp`, `positivity`, `ring`); what it
  proves is checked by the kernel like the rest.  All other modules use the core library only.
* The reading of the C++ source.  The model is a translation by hand; the code was not built or run.  Each definition cites
  the lines it translates so that this can be checked by comparing the two.
* The simplifications which are stated at each definition or at the head of a module.
* What lies outside the repository is a parameter, or is assumed to behave as documented: the C++ standard library
  (containers, streams, strtoull); libevent (a bufferevent keeps the bytes in order, callbacks of one base run one at a time);
  epicsMutex (critical sections are atomic), epicsEvent (one flag) and epicsThread; sockets; name resolution and the list of
  network interfaces; getpwnam() and getgrouplist(); access security, dbPut, dbGet and processNotify of epics-base.
* Undefined behaviour of the C++ which a definition can reach is a result of its own (`Res.ub`, `none`, or an abort), so that a
  theorem which says "the result is ..." also says that none is reached.

## How things are modelled

* Wire layer: an output buffer is the list of bytes written, an input buffer the list of bytes not yet read, with a fault
  flag.  Sliced buffers are modelled for C56.  Machine integers are natural numbers or integers with explicit truncation,
  floats and doubles are bit patterns.
* Types are tables of nodes as in the C++ (`FieldDesc`: offsets, lookup map); values are cells over such a table, with marks.
  The specification sees trees and paths.
* Protocol state machines (server operations, server and client subscriptions, client operations, channels and connections,
  searches, beacons, caches) are step functions over events.  Messages of the peer, calls of the application, timers and the
  running of deferred work are all events; a theorem over all lists of events covers all interleavings at this granularity.
* Code which several threads run at once (FIFO, event loop work queue, wait(), start/stop, group subscriptions) is an
  interleaving of steps, each of which is a critical section or a call which can block.
* Text (pvRequest, configuration, addresses, escapes, field names) is parsed by functions over byte lists.

## Plan per property

| id | model | proof |
|----|-------|-------|
| C01-C05 | `Wire`: functions of pvaproto.h | round-trip laws for all values, both orders, any suffix; rejection of every strict prefix |
| C06 | all decoders | each decoder consumes a prefix of its input and depends on nothing else; fault is sticky |
| C07 | `Wire`: SockAddr encode/decode | round trip, split by family |
| C08, C09 | `BitMask`: 64 bit words and a size | refinement to sets of numbers |
| C10-C12 | `TypeDesc`: type tree, flattened table, encoder/decoder with cache | round trip by induction on the tree; well-formedness invariant of the decoder for all bytes |
| C13, C14 | `Value`, `Float`: flat storage and marks, full and partial codec | round trip by mutual induction |
| C15-C18, C57 | `ValueOps`: marks, iteration, assignment, lookup, comparison | invariants over histories on a heap; refinement to paths in a tree |
| C19 | `TypeCode` | the complete table of 256 codes, which is the whole domain, lifted to statements about all codes |
| C20, C21 | `Conn`: bevRead as step function | independence of how the stream is cut, by induction on the reads; grammar of segments |
| C22-C24, C54 | `ServerConn`: operations and channels of one client of a server | invariants over all lists of events |
| C25-C29, C59, C61 | `ServerMon`: queue, window, heap of shared values | refinement to the log of what was posted |
| C30, C31 | `SharedPV` | invariants over all lists of events |
| C32 | `PVRequest` | characterisation of the mask by induction on the type |
| C33 | `ReqParse` | the texts accepted are those of a grammar; meaning |
| C34, C35, C60 | `ClientOp` | invariants over all lists of events |
| C36-C38, C62, C63 | `ClientMon` | invariants over all lists of events |
| C39 | `Ids` | an allocated number is not in use, including wrap around |
| C40, C41 | `Source` | decision logic for all sources, names and packets |
| C42, C66 | `Search` | invariants over ticks; grammar of packets |
| C43 | `Beacon` | the events told are the transitions of the known set |
| C44 | `Cache` | invariants over histories |
| C45, C46, C64, C65 | `Config` | list lemmas; print/parse round trips |
| C47 | `Udp` | a packet is delivered if and only if it is in the grammar |
| C48 | `Fifo` | inductive invariant for any number of threads |
| C49 | `SharedArray` | invariant over histories of references |
| C50, C55 | `Text` | inverse function; the difference applied to one text gives the other |
| C51 | `Log` | level as function of the last matching call |
| C52 | `EvLoop` | inductive invariant for any number of threads |
| C53 | `Life` | inductive invariant for any number of callers |
| C56 | `Wire`: sliced buffers | refinement to contiguous buffers |
| C58 | `Scalar` | decision logic: exact value or refusal |
| C67, C70 | `GroupConf`, `FieldName` | decision logic over all definitions; print/parse |
| C68, C69 | `GroupPut`, `GroupMon` | what is written, and by whom; invariants over database events |
| C71-C73 | `ClientChan` | inductive invariant over all events of a client context |
| C74, C75 | `Handshake`, `IocCred` | round trip of the handshake; names seen by access security |
| C76, C77 | `RecordPut`, `RecordGet` | histories of puts; what a client knows follows the record |
| C78 | `Wait` | inductive invariant for any number of threads |
| C79 | `PutBuild` | induction over the calls; names and nodes of a type correspond one to one |
| C80 | `TypeDef` | mutual induction over definitions: copying the table gives the definition back; induction over the added members |
| C81 | Model/ArrayConv.lean: the table of `convertArr` as written (which casts through which types), elements as bit patterns, reals decoded to whole multiples of the smallest positive real (Spec/ArrayConv.lean). By cases over the table for integers; rounding proved nearest for any format (Lemmas/Real.lean). Text of reals open. |
| C82 | StaticSource as a map with a cached list, threads in onList() as steps, the RPC handler on the Values of C18 and its replies in the connection of C24 | invariant over all histories; sorted union by induction; lookup of members by C18; negations with witnesses |
| C83 | `Value::copyIn` and `copyOut` for doubles and floats, and the text of a double as printf("%.6g"); parsing text is a parameter | nearest and exact values by Lemmas/Real.lean; the text by uniqueness of the first digit and of the nearest multiple of the sixth |
| C84 | the info() operation with its channel, the body of the reply written by the server and read by the client | invariant over all histories; composition with the type codec of C10 |
| C85 | `Model/ClientConnect.lean`: exec(), release, the worker queue, the two callback loops, exceptions and frees in callbacks | simulation by a per-Connect view, induction on histories; counterexamples for throwing and releasing callbacks |
| C86 | PVA output and forward links of one channel: writes, the PUT operation and its callbacks, completion, disconnect (ioc/pvalink_channel.cpp, pvalink_lset.cpp) as a step function over links, operation and waiting records | flow invariant (sent ++ pending is a sublist of written; its last element is the last write) by induction over histories; invariants on queue, operation and waiting records; witnesses for the violations |
| C87 | links of one channel (sorted set), subscription queue with its wake-up flag, worker entries, scan lists; record states as a parameter of each step | invariant over event lists relating queue, flag and entries (no lost wake-up) and taken items to scans; sorted set = permutation of attached links |
| C88 | cache of one input link, reads with conversion into the buffer of the record, alarm and time (ioc/pvalink_lset.cpp, pvalink_link.cpp) as a step function over updates, disconnects and reads | induction over histories (state = last update); relation Shows for conversions; witnesses for the violations |
| C89 | JSON callbacks of a link (ioc/pvalink_jlif.cpp) as a fold over tokens of a JSON tree | induction on the tree: nested maps restore the depth; table of the documentation as specification |
| C90 | `parseTo<double>` over bytes: the grammar of strtod, the rounding of a ratio to 53 bits, ERANGE; the text written by `<<` (C83) | grammar sound and complete; nearest by the arithmetic of ratios, no bound on digits or exponent; write-read-write by error bounds; negation for inexact numbers below 2^-1022 |
| C91 | get of a group as a list of steps (lock, one step for each dbChannelGet, unlock, reply), interleaved with writes of other threads which wait for locks | invariant over schedules: what has been read under a lock is the state now; program split into locked blocks | 
| C92 | `discover()`: listeners, the two threads which report events under `pokeLock`, the queue of the worker; steps in any order | invariant over schedules relating what was reported, what is in progress and what came while a listener was in place; concrete histories for the races |
| C93 | output buffer, low-water mark, suspended reading and backlog of one connection, with `doReply`/`doPost` of its subscriptions; libevent write callback as a step | invariant over all histories; a measure which every step of the server and of a reading client decreases; induction on rounds for the missing bound |
| C94 | GroupJson: the callbacks of the JSON parser, assign(), what is kept from one text to the next, and the loops over records and files | a text of the schema is a fold over what it says, lookups by an invariant over this fold; negations by witnesses and, for silent acceptance, for all texts |
| C95 | GroupLoad: the list of files, dbLoadGroup(), the command of the shell, and the start | induction over the history of commands |
| C96 | `RecordVal` | a relation between the content of a field and a value; put establishes it, get reports it |
| C97 | the builders of src/nt.cpp, on the model of TypeDef (construction, operator+=, as) | the list of (path, code, id) of the built definition equals a table written out in Spec/NT; all 256 codes by a complete case check; columns and arguments by induction over their list; witnesses for what is not so |
| C98 | `GroupType`: the members for each mapping, their nesting, and TypeDef += | lookup by path in the merged definition equals a fold over what each mapping calls for; induction over the path and the list of mappings, on the merge theorem of C80; witnesses for what is not so |
| C99 | Model/Print.lean: src/datafmt.cpp delta format in full, scalars and arrays of the tree format; src/sharedarray.cpp Limiter | the names printed are related to the lookup of C18 (Leads), what is listed to marks (CoveredBelow), by induction over nested values; witnesses for wrong names of choices, Any, limit, 8 bit numbers |
| C100 | Model/RpcArgs.lean: src/clientget.cpp arguments and RPCBuilder::exec, src/pvxs/nt.h NTURI::call, src/pvxs/data.h Helper::build | the type made is related to the definition (C97, C80), each argument is assigned to its own range of nodes, by induction over the arguments in order of their names; witnesses for arguments which are lost, nested or refused |
| C101 | Model/ServAddr: the constructor of a server on a host given as a parameter (which addresses are taken, which clash) | induction over the interfaces; witnesses for the ports kept with interfaces, for a second server, and for overlapping interfaces |
| C102 | Model/LinkMeta: the getters of a PVA link for limits, precision, units and alarm message | lookup by name with the theorem of C18; witnesses for missing fields and for the last character of a message |
| C103 | tools/mshim.cpp: rebuilding of packets, destinations, options (Model/Mshim); reception by Model/Udp | composition of the encoder, in a buffer of limited size, with the exact description of reception (C47); size bound of every search which can be received; negation for beacons, IPv6 addresses and -p |
| C104 | constructor of a client context: destinations, unicast marks, name servers, beacon listeners; sending of a packet (Model/ClientAddr) | via the round trip of C64 and the merging of C45; negations by general or concrete witnesses |
| C105 | the counters, levels and dispatched calls of MonitorOp beside the model of subscriptions; the number after which client and server take acknowledgements to come | invariants over all histories: maximum = peak of the waiting updates, count = combined updates, calls = acknowledgements which exceed the level; negations by concrete runs |
| C106 | the argument loops of pvxput and pvxcall, the values they build (on the models of put builders, TypeDef and NTURI), main() as a state machine of result, signal and timeout | structural induction over the arguments, reduction to C79 and C100; invariant over all histories for the exit status; negations by concrete runs |
| C107 | Model/IfaceMap: _refresh(), refresh(), try_cache() and the questions of IfaceMap over a history of the host (a function of time) | invariant over the list of calls: what is known is what the host said at `updated`; lemmas on one reading (sound, complete, sorted); negations by witnesses |
| C108 | the two printers of types, `show_Node` and `FmtTree` without values, over definitions and over the built table of fields (`nameOf` included) | both are shown to have one common layout, which is decoded from left to right: by induction over the pair of definitions each part of a line is cut off at its delimiter; witnesses for IDs of arrays, quotation marks, NUL |
| C109 | both sides of a connection with their timers (echo period, read timeout, attempt, pause) and the network as two queues of time-stamped messages; time is explicit | invariant: gaps between echo messages, between their answers, and to the next timer are bounded, so that no timeout can be due; induction over events for detection and for the news of a close; witness for timeouts which do not match |
| C110 | Model/WorkQueue: any number of the subscriptions of Model/ClientMon, the work queue, the main thread of tools/monitor.cpp step by step | invariant: calls of the callback = pops which found nothing + entries held; what arrives is independent of pops; a measure for progress; pigeonhole for room and exit status |
| C111 | main() of pvxget, pvxinfo and pvxlist after the options: the counter, the event, callbacks, time out, interrupt, exit status; the set of servers pvxlist has printed | invariant over all orders of events (what is answered, printed and counted; when the event is set), pigeonhole for the counter; which endpoint is printed by induction over the events of Model/Beacon; negations by general theorems and two histories of beacons |
| C112 | Decoders of types and values (Model/TypeDesc, Model/Value), what is asked for before the bytes are checked (Model/Memory) | Weight of a value by induction on fuel, cells and elements; nodes of a type paid by bytes as an invariant of the type decoder when nothing is cached; a tower of cached types with its exact size for the negation |
| C113 | testCase with its moves and its destructor, the comparisons, testThrows | conservation law over all histories: begun = reported + pending + dropped; list induction for lines and arrays; witnesses for what is dropped |
| C114 | the walk over two maps of pvxrefdiff, pvxrefshow, the sums of dbpvar | functional induction on the walk with sorted maps; fold = count |
| C115 | the hooks of the IOC, whether QSRV is enabled, ioc::server() against shutdown | invariant for each phase over all sequences which Base allows; decision table for the environment; interleavings of the steps |
| C116 | the filters of pvxvct, with the mask computed in 32 bits | bits of the mask for each length, equality under the mask is equality of quotients; loops by induction |
| C117 | CliStat: the counters of a client subscription on top of the model of C36-C38, `stats` with and without reset | conservation: a potential (waiting + merged) changes in each step by what comes minus what is popped; counters by induction over the history; negation of the clause on the longest queue by run |
| C118 | Once: epicsThreadOnce() as in EPICS Base, `onceWrapper`, `threadOnce_`, the noexcept template; any number of threads | invariant over all interleavings in three phases (not begun, active, done); progress of each thread by itself; negations by run and by invariant |
| C119 | Report: counters of a connection and its channels, messages known by size, segments, resets, a client's change of connection | conservation by induction over the history; the inequality as an invariant with the bytes of an unfinished message; negations by run |
| C120 | Model/Timer: the handle, the event and the work posted by another thread as a transition system | Invariant over every list of steps: what was logged is consistent with the state of the event; the destroyed running callback is shown by a witness |
| C121 | Model/OutBuf: both growing buffers with requests for memory answered by a list; the write pattern and the array loop of the encoders | Laws of refill and store for both kinds, then induction over items and over turns of the loop; refinement of Wire.Out |
| C122 | Model/LogMsg: the buffer of 80 bytes as memory, snprintf() with size_t arithmetic, the loops of the hex dump | Case analysis on the lengths; induction over groups and lines, against a reader of hexadecimal digits |
| C123 | SigInt: the variable onsig, signal handlers in three steps, worker thread, destructor in three steps; Server::run() with its event | invariant over all interleavings, relating the log of what is seen to the state; concrete runs for the call by the destructor, the handler in progress and run() which does not wait |
| C124 | InstCounter, registerICount(), instanceSnapshot(): one counter, constructors in up to three steps | invariant which relates the counter to the number of objects and to who is registering; concrete run for the answer which is one too low |
| C125 | Indented and Detailed: the shared indices, iword() of all streams, constructors in two steps, moves; programs of nested scopes | invariant: the word at the index is the sum over the objects; induction over programs; concrete run for objects destroyed out of order |
| C126 | evsocket objects with constructors which may throw, moves and destructors; the options of the sockets of a sender | invariant: each socket is closed once or has exactly one owner; induction over the destinations; concrete run for a failing setsockopt() |
| C127 | procSearchReply() on the bytes of a datagram or message, for a table of channels | the decoder reads exactly what the grammar of replies says; induction over the identifiers, and over histories; concrete datagrams for the violations |
| C128 | channels with and without a given server, through search, connection, acceptance, refusal and loss | every step is one of ten kinds of moves of a channel; invariants over these; concrete run for a refusal |
| C129 | threads which look at a link, sleep on its event and are woken; updates | invariants over all interleavings; concrete run for two threads |

## Not modelled

COVERAGE.md has the exact ranges.  By subject:

* libevent itself, sockets and system calls, memory management, thread scheduling other than the interleavings above;
* log output, statistics and reports (`report()`, `instanceSnapshot`), version queries, documentation strings;
* printing of values (`datafmt.cpp`), floating point arithmetic and its text form, conversions of arrays (`sharedarray.cpp`);
* `TypeDef` operations beyond those which build a type (`as()`, `+=` with merging), `nt.cpp`, `describe.cpp`, `unittest.cpp`;
* the transmit side of a connection as bytes (order is that of the model's replies; back pressure is modelled only for
  subscriptions);
* Windows, RTEMS and vxWorks variants;
* of the IOC: JSON reading of group definitions, conversions of record data, database links (`pvalink*`), shell commands, and
  start-up (`iochooks.cpp`, `*hooks.cpp`).

## Status, and where the code disagrees with a property

The table has the status of every property.  Where a remark says that the code violates a property, or that it is false, its
negation is proved of the model on a concrete run; the theorem is named there or in MANIFEST.json.

<!-- status begin -->
| id | title | status | remarks: what is missing, what was found |
|----|-------|--------|---------|
| C01 | Variable-length size field round-trips and is self-delimiting | proved |  |
| C02 | Fixed-width integers are written most/least significant byte first as negotiated | proved |  |
| C03 | Strings round-trip byte for byte | proved |  |
| C04 | Status messages round-trip | partial | The code cuts texts at the first NUL (negation proved); proved for NUL free texts, and for the prefix before NUL in general. Code 255 is excluded: not a member of the status enum. |
| C05 | Message headers round-trip and malformed headers are refused | proved | A little-endian sender must not itself set the MSB flag bit (hypothesis hf); no caller does. |
| C06 | Wire decoding never reads outside the received bytes, and a fault is permanent | proved | For every decoder: consumes only a prefix of what was received, a fault consumes nothing more and cannot be cleared, success depends only on the bytes consumed. Recursion depth is bounded by the message length and by nothing smaller (C06_depth_unbounded): the code has no limit of its own for nested Any. |
| C07 | Socket addresses round-trip in the 16-byte form | partial | IPv4-mapped IPv6 addresses come back as IPv4 (negation proved). |
| C08 | Changed-field bit masks round-trip | partial | Fails for members >= 65528 (negation proved): the receiver's uint16_t size wraps. |
| C09 | Bit mask queries and boolean algebra agree with sets | partial | Complement leaves bits above the size set, so findSet is wrong on complements; /= takes the size of its right operand, so members of a larger left operand are lost but still found by findSet (C09_or_assign_shrinks); onlySet(a,b) does not terminate unless b is a member or the size (negations proved). |
| C10 | Type descriptions round-trip | proved | definitions accepted by the Member constructors; 'identical' is equality of the descriptor table, which C10_faithful shows determines the definition |
| C11 | The per-connection type cache replays a definition exactly | partial | the code keeps the first definition of a key, so the literal claim (most recent) is refuted by C11_redefinition_ignored and the first-definition form is proved for all histories |
| C12 | A type description accepted from the network is internally consistent | partial | Descriptions with distinct, undotted sibling names: the table and all nested tables are consistent. The decoder also accepts duplicate names (C12_duplicate_accepted); constructing a value of such a type throws (C12_unusable_or_consistent) and never reads outside the table (C12_construct_safe). |
| C13 | A complete value round-trips | partial | All types without Union[]: every field equal after the round trip. With Union[] the exact result is stated (C13_union_array); C13_union_array_flattened shows that the English property is false there. |
| C14 | A partial update transfers exactly the changed fields | partial | Structures of fewer than 2^16 nodes, any marks, any mask, any previous content of the receiver: exactly the selected fields change. The content of Union[] fields arrives as described by C13_union_array. |
| C15 | Marking a field marks exactly what the API says | proved | marks over all operation histories on a heap of structures; mark() also marks the fields holding the storage (enclosing Union/Any/array), never parents inside the structure; clear() gives the field and all below it the content of a new value, unmarked |
| C16 | Iteration visits exactly the documented fields | proved | Struct iteration; iteration over a Union's choices is a list lookup and not stated |
| C17 | Assigning one structure to another copies exactly the marked fields | partial | same-type Struct assignment proved except Unions, re-typed array elements and peer-sent odd names; those cases violate the property, witnesses proved |
| C18 | Dotted-path lookup finds precisely the named member | partial | every expression, including <, ->, ->name and [n], proved to find exactly what it names, for every value of a type without odd names; the code throws instead of giving an invalid Value for an index which is not a number (C18_throws), and can not find a member whose name, sent by a peer, has a special character (C18_odd_name) |
| C19 | Type code scalar/array conversions are inverse and total | proved | all 256 codes, by kernel evaluation of the complete table |
| C20 | Stream framing does not depend on how TCP delivers the bytes | proved | Receive loop, watermarks and libevent's delivery are modelled; handlers are an arbitrary state transformer which may close the connection. Full state equality for any two ways of cutting the same stream, and a protocol-level specification of what is acted on. |
| C21 | Segmented messages are reassembled exactly | proved | Segments with interleaved control messages; violations close and discard. |
| C22 | Each GET/PUT/RPC execution receives at most one reply | proved | all interleavings of peer messages and application calls on one connection; application callbacks are not reentrant |
| C23 | A reply belongs to the execution it answers | partial | the property is false of the code: a reply through an old handle answers a newer execution. Proved for applications which use a handle once and not after cancellation |
| C24 | Operation close callbacks run exactly once | partial | at most once, and exactly once on teardown; the code never calls it for operations which end by a reply |
| C25 | The server's subscription queue is bounded, ordered and loses nothing but squashed intermediate states | partial | proved for applications which post each Value once; C25_reposted shows the violation when the same Value is posted again (squashing modifies shared storage) |
| C26 | Finish is delivered last and exactly once | partial | order, uniqueness, completeness and refusal proved for all histories; delivery fails when a stop races with the scheduled end (C26_lost) or the window is exhausted (C26_stuck) |
| C27 | Pipeline flow control: the server never sends more updates than the client granted | partial | holds if the subscription is neither finished nor stopped; violated otherwise |
| C28 | Pipeline flow control: no stall | partial | holds without pipelining; violated with it: an acknowledgement does not schedule a transmission |
| C29 | Subscribers to one PV are independent | partial | Proved for applications which post each Value to one subscription (C29_independent_partial). SharedPV does not: it passes one copy to all subscribers; C29_sharedpv shows a subscriber which misses a value, and sees values out of order, because another is slow. C30_converges_partial: the last value is right nevertheless. |
| C30 | SharedPV: get and monitor observe posts in order | partial | fetch()/GET in full. Subscribers: under the hypothesis that the application does not call open/post/close in the window between the snapshot and the registration of that subscriber; C30_missed_post shows that a post in this window is lost, C30_not_forgotten that a subscription which ends in it stays registered. |
| C31 | SharedPV life cycle | partial | open/post/fetch/close in full. First and last client callbacks for histories without close(); C31_last_twice and C31_first_twice show that close() breaks their alternation. |
| C32 | Field selection (pvRequest) selects exactly the requested fields | partial | The mask computed for every type (below 2^16 fields) and every request is exactly the requested set, all others are refused; what is sent equals marked and selected fields when only fields (not structures) are marked. The full claim about what is sent is false: marking a structure sends parts which were not requested (C32_sends_more). |
| C33 | pvRequest text parser accepts the documented grammar and builds the corresponding request | partial | proved for the grammar the parser implements (Spec/ReqParse): exactly these texts are accepted, every other text throws, and the request built is the one the text says, down to the set of fields selected of a type. C33_lenient/C33_strict: where this grammar differs from the documented one. |
| C34 | A client operation delivers exactly one result | partial | At most once, and once after three answers, for every history; the outcome is explained by the event which caused it; after cancel()/drop nothing is sent or called. False of the code when cancel() is called inside the put builder: the put is still sent (C34_cancel_in_builder). |
| C35 | Re-executed client operations report every outcome | partial | Holds while the connection lasts and the server reports no error; false otherwise: error replies and reExecGet at a disconnect are never reported, a callback can be called twice (witness runs). |
| C36 | Client subscription event notification is never lost | partial | While an event waits the callback was called since the queue was last found empty, or is called when the worker continues; called at most once more than the queue was found empty. Not called twice before the queue is emptied, if pop() is not called while the worker is about to call the callback; C36_late shows that otherwise it is. |
| C37 | Client subscription queue order and squashing | partial | Order, merging and Finished last for all histories. The bound is queueSize plus one for each connection event waiting (C37_exceeds: queueSize itself is exceeded); latest content unless both connection events are masked (C37_stale). |
| C38 | Client pipeline acknowledgement accounting | partial | Never more acknowledged than popped. Window plus queue within queueSize on one connection with connection events masked; false after a reconnect and when connection events are popped (witnesses). |
| C39 | IDs allocated to concurrent channels and requests are distinct | proved | For any history of allocations and releases the numbers in use are distinct 32 bit numbers; an allocation takes a free number and disturbs no other, also after the counter wraps. C39_channel_hang: client channel numbers are never released, so that channel number 2^32+1 of a context is searched for in an endless loop. |
| C40 | Channel requests are answered by the first source, in priority order, that claims them | partial | Sources are asked in (order, name) order, the first which does anything decides, each name gets one reply, open channels get fresh numbers; proved for sources which throw only before acting (otherwise false: C40_throw_*) and for non-empty names (false after an empty one: C40_empty_name). |
| C41 | Search replies contain exactly the claimed names | partial | UDP: replies are sound for all packets; complete unless IPv6 addresses are on the ignore list (then all IPv6 senders are ignored: C41_ignore_v6). TCP: exact when no protocol follows tcp in the list (otherwise false: C41_tcp_protocols). |
| C42 | Every unresolved channel keeps being searched | partial | For every history of events (names up to 32738 bytes): an unresolved channel is scheduled, the packets of each tick are searches for exactly the unresolved channels of the bucket, each announces the number of its names and is at most 1400 bytes unless it has one name only, and any thirty ticks send the name of a channel which stays unresolved. 'Exactly one bucket' is false (C42_twice, proved negation); names which do not fit abort the process (C42_long, C42_long_two). The same packets, as unicast and without a port, go to name servers (C42_tick, C42_initial); to which destinations is C104. Errors of sendto() are not modelled. |
| C43 | Beacon tracking reports online/offline transitions consistently | proved | For every history of beacons, sweeps and listeners. Who starts to listen late is not told which servers are already online, so that the first event told may be offline (C43_late). Beacons, sweeps and the set of listeners are taken to be changed in turns; in the code the set of listeners is changed without the lock. |
| C44 | Client channel cache keeps channels in use | partial | For every history of operations and clean-up. That a channel which was used since the previous pass is kept is false (C44_first_pass, C44_used_dropped): the mark is tested right after it is set. |
| C45 | Duplicate address list entries are merged without losing reachability | proved | The merge for every list of endpoints, and the lists in effect after expand() of a client and of a server. Addresses are compared as evutil_sockaddr_cmp does (family, IP, port); the operating system's interface list is a parameter. |
| C46 | Configured timeouts and ports are validated | partial | The timeout part holds in full. A port number below 65536 is used as given and text which is no number is ignored; a greater or negative number is neither: it is used modulo 65536 (C46_wrap). |
| C47 | UDP packets are filtered as specified | proved | Exact: a search or beacon is delivered if and only if the bytes of the packet form one according to the grammar in Spec/Packet and Spec/Udp. Found: an assert() fails, ending the process, for a packet from this host which is both tagged and unicast (C47_abort_iff says exactly when); once a search allowed for tcp, names in later ones which do not are delivered as well (C47_sticky). |
| C48 | The bounded FIFO never loses an element or a wake-up | proved | For any number of threads and every interleaving. epicsMutex gives atomic critical sections and epicsEvent is a binary flag: both are assumed. |
| C49 | shared_array bounds checking and immutability | partial | For every history of references made by one thread. at(size()) is not refused and reads beyond the array (C49_at_end); every other index beyond the end is refused (C49_at_partial). Concurrent use of one reference count from several threads is not modelled. |
| C50 | Escaped text is unambiguous | proved | For all byte strings. A null pointer renders as <NULL>, as the text "<NULL>" itself does; this is outside the statement and recorded by C50_null. |
| C51 | Logger level depends only on the configuration | partial | The level is that of the last matching call, whenever the logger was first used, if no pattern matching the name is set, then another, then the first again, and the configuration is not cleared. Loggers of one name always agree. PVXS_LOG is read as documented. The full claim is false: C51_depends, C51_ignored give histories where the level depends on the time of first use, and where the last call has no effect. Glob matching is a parameter. |
| C52 | Work handed to the event loop runs in order, exactly once | partial | Order, at most once, call() after its function with its exception, nothing accepted after stop, no lost wakeup and progress are proved for all interleavings. That everything accepted is run fails for a dispatch() or call() which overlaps the end of the loop (C52_lost); C52_drains_partial is the part which holds. |
| C53 | Server start/stop are idempotent and exclusive | partial | Turns, effects and returns are proved for all interleavings and any number of listeners. That no connection remains after stop() fails for a stop() which overlaps another start() or stop() (C53_stop_lost, C53_stop_early). |
| C54 | A destroyed channel is gone | partial | false of the code: the id stays usable and is never released; what holds is that the requests of the channel are over |
| C55 | Line diff terminates | partial | The line difference is proved in full. Splitting into lines is proved for text without a lone carriage return; C55_hang proves that the loop does not end for text with one. |
| C56 | The way the network slices a message has no effect on decoding | partial | Buffer::skip across a slice boundary skips too much (negation proved). |
| C57 | equalType() is true exactly for types with the same structure | partial | for types a program defines: true for the same structure; without Unions, false otherwise, symmetric and inside the tables; with Unions the code is wrong both ways (C57_union_choices) |
| C58 | Conversion of integer scalars is exact or refused | proved | Integer fields of all widths, read and assigned through signed, unsigned, boolean and string types. copyScalar (the conversion used by assignment between Values, C17) agrees with copyIn. Conversions to and from floating point are not part of this property. |
| C59 | onStart tells the application whether the subscriber is running | partial | holds unless the client cancels or the subscription is finished |
| C60 | A put or RPC acts on the server at most once per execution | partial | Proved for reExec in every history and for automatic execution while the connection lasts; false of the code when the connection is lost after an automatically executed put was sent (C60_twice). |
| C61 | A pipelined subscription does not stall | proved | For all histories, queue sizes and thresholds. |
| C62 | A subscription which ends tells why | partial | Except when onInit() throws (C62_silent: ends without event) or cancels, or the server ends the subscription with its INIT reply. |
| C63 | No server message and no cancel() makes the client subscription follow a dangling pointer | partial | If the server sends updates only after START and onInit() does not cancel; witnesses that both are needed. |
| C64 | Addresses printed by the library mean the same when read back | partial | Holds except for a multicast time to live of 0, which is printed as none and read back as -1 (C64_ttl_zero). A host name which has only IPv6 addresses is taken for 0.0.0.0 (C64_host_v6). inet_pton, inet_ntop and name resolution are parameters; interface names which look like an IPv4 address or contain a comma are excluded. |
| C65 | A configuration written out and applied again is the same configuration | partial | Ports, flags and the sets of addresses are restored, for addresses in the form the library prints; a default port is added where none was given. The order of the addresses is not restored (C65_order). A timeout in use is restored within one part in 100000, and is then written as the same text; a number of at most six digits given by the user is written as the same number; a timeout of more digits is not restored exactly (C65_timeout_lossy). Scaling by 4/3 and the text are modelled as IEEE 754 rounding, C83 and C90. |
| C66 | hurryUp() starts one quick round of searching, at most once per thirty seconds | proved | Times are whole nanoseconds. C66_clock: a clock which is set back blocks hurryUp(). That thirty ticks search for all channels is C42_again. |
| C67 | A group's fields are put in order, and an event of one field updates just the fields its +trigger names | partial | Order of fields, triggers and references of a group built from its definition. Missing: a field whose record does not exist keeps triggers out of range (C67_dangling); names in +trigger lists are not trimmed (C67_blank). |
| C68 | A group put writes just the fields the client sent, in put order, where that client may write | partial | What a group put writes, in which order and under which locks. Missing: a non-atomic put checks the wrong client's permission (C68_wrong_client, C68_wrong_refusal), a denied atomic put leaves earlier fields written (C68_half), proc fields need no permission (C68_unasked). |
| C69 | A group subscription starts with a complete update and then loses no change | partial | All sequences of events, when a start does not run at the same time as an event. Missing: with a start on another thread a change can be lost or sent twice (C69_race); if a record cannot be read at first, the first update is incomplete (C69_unread). |
| C70 | Names of group fields are understood as written | partial | Every well formed name is read as written and printed back. Missing: names which are not well formed are not always refused (C70_lenient). |
| C71 | A channel in use is never forgotten, nor are its operations | partial | Full statement proved for all histories in which servers give no ID twice on a connection and connect() does not fail at once; both exceptions are counterexamples of the code (proved). |
| C72 | One connection for each server, and none after close() | partial | Proved for all histories without server(), refused channels and name servers; the property is false of the code with them: the destructor of a lost connection removes the entry of its successor (proved). |
| C73 | Name servers are connected to again | partial | Proved for all histories in which the client does not itself close a name server's connection; in that case it is never connected to again (proved). |
| C74 | A server knows who its client is | partial | Proved for one handshake and for all sequences in which no handshake without an account follows one with; in that case the server keeps the old account (proved). |
| C75 | Access rules of an IOC see the client's own names | partial | The names and the decision proved for all accounts known to the operating system; the host for IPv4. For an unknown account its own name is also a role, and IPv6 hosts are cut at the first colon (both proved). |
| C76 | A put to a record of an IOC | partial | Safety (only what is permitted is written; at most one reply) for all histories; exactly one reply and one write for all sequences of puts which do not overlap. The code breaks the rest: a put without value resets the record, overlapping puts lose a reply, a failed conversion with block=true leaves a C callback by exception, process=true disables block=true, links are not processed, the identity is that of the first put (all proved). |
| C77 | Reading a record of an IOC | partial | Proved for all records and sequences of events; a subscription to archive events is only sent empty updates, and subscriptions ignore the time tag which a get applies (both proved). |
| C78 | Waiting for the result of an operation | partial | Proved: what wait() returns is the first result or interruption, for all interleavings; with one thread at a time waiting, it is let go once there is a result. Violated by the code, negation proved: with two threads waiting the result wakes only one of them (C78_second); a timeout may be reported although the result is there (C78_timeout); an interruption is remembered and the result which follows it is never returned (C78_interrupted). |
| C79 | A put built with set() sends just the values given | partial | Proved for all prototypes and all values which are not structures, names without < [ -. A structure given for a field which can hold any value is lost without error (C79_lost), and is refused by a field of the same type (C79_struct); both proved. |
| C80 | A definition of a type describes the type, and can be extended | partial | Copying proved for every type defined by a program (valid, distinct names), every field; merging proved for distinct names. False of the code (proved): a value from a peer whose type has a member such as a-b has no definition, the constructor throws (C80_odd_name); two members of one name, or a name with a dot given to as(), pass the constructors but abort the process (C80_duplicate, C80_as); a structure with members may become an Any which keeps them (C80_any); after a refused += the definition can not be extended any more (C80_failed). |
| C81 | An array taken as an array of another element type has the same numbers | partial | Proved for all pairs of integer, boolean and real types (nearest real, exact when it fits; truncation), for text of integers and booleans both ways, and inside a Value. The code violates it: an element of uint8_t[] above 127 is printed as another number (200 as 4294967240, C81_octets); other text than true/false for bool[] throws std::runtime_error instead of NoConvert, so tryFrom throws and an Union refuses an array another choice would take (C81_bool_text, C81_try, C81_union); a real out of range is undefined behaviour (C81_real_ub); an untyped array of Values with two references can not be thawed (C81_thaw). Text of reals is a parameter here, given by C83 and C90 (C90_array). |
| C82 | The names a server lists are those it has | partial | Proved: a StaticSource has, claims, lists and closes exactly what was added and not removed, for every history; op=channels lists exactly the union of what the sources list, sorted, for every type of the arguments; info; an error for any other text; at most one reply reaches the client. The code violates the rest: a call without op (or with op which is no scalar) throws in the handler after its ExecOp has been moved away, so that no reply is ever sent (C82_silent; any throwing handler has this effect); help together with op gets the help only (C82_help); onList() replaces its list with only the lock for readers (C82_race); a PV added as "server" hides the built in one (C82_hidden). Not modelled: the normative types around the replies. |
| C83 | Numbers with a fraction convert to the nearest value | partial | Proved for every content and every double: nearest double, dropped fraction, low bits, six digits of text. Violated: a large integer assigned to a Float32 field is rounded twice (C83_double_rounding); a double out of range of 64 bits read as an integer is undefined behaviour (C83_real_ub). Text of seven digits cannot be read back (C83_text_lossy). Parsing text as a double is a parameter here, given by C90. |
| C84 | info() reports the type the server sent, once | partial | Proved for every history: called at most once, exactly on the answer to the present request, with the server's type (bytes from the server's encoder to the client's decoder) or error; asked once per connection; nothing after cancel or drop. Violated: a type nested deeper than 20 levels is never reported, the client reconnects for ever (C84_deep); cancel() returns true for an operation which failed at once (C84_cancel_failed). |
| C85 | connect() tells the state of the channel, each change once, in order, until released | partial | Proved for every history in which callbacks neither throw nor release a Connect and the channel can be made. The code violates the rest, each shown by a concrete history: a Connect with an invalid server (or closed Context) aborts the process when released; a callback which releases another Connect of the channel, or its own in its first call, leaves a dangling pointer which is then used; a callback which releases a Connect made just before aborts; a first callback which throws is never called again; a throwing onDisconnect loses the channel for good (or aborts if operations use it); Operation::name() dereferences null before the worker ran or after a failed set up. |
| C86 | PVA output links deliver the last value written, with the processing asked for, and complete the record | partial | Proved for all histories: no value is made up, reordered or sent twice. Proved for histories without loss of connection, refusals, conversion errors, or writes during a client callback: the last value is delivered, the record completed; the process option is right if no link is written while a PUT waits to be built. The code violates the rest, proved: a disconnect leaves a waiting record in progress for ever; a record is completed before its value is sent; retry sends an empty PUT, and a disconnect drops the values it should retry; a PUT which replaces one not yet built forgets PP and forward; writing a link while the client worker is about to call a callback deadlocks (the lock is held while the old operation is destroyed synchronously); one unconvertible value withholds those of other links. |
| C87 | Each update of the target of PVA input links is followed by processing of the records which ask for it, with this update | partial | Proved for every event history in which attached links have distinct addresses: no lost wake-up, one scan per delivered item in order with the cache right after it, exactly the records of the attached links which want it, attach while connected. Not as documented: monorder is not respected between atomic and non-atomic links (C87_order); a record with two links is processed twice per update (C87_twice); an error item processes records although nothing changed (C87_error). Not modelled: a link removed while the scan is running, locking of records. |
| C88 | A record which reads through a PVA input link gets value, alarm and time of the same, most recent, update | partial | Proved for every history: a successful read of a readable value shows the most recent update, alarm and time are of the same update. Violated by the code (negations proved): a read of a disconnected link yields no value though documented; a field missing from the update gives success with nothing written; the time of a former type stays after a type change; without time stamp the record's time is 1990; times before 1990 wrap; the user tag is always 0; arrays of numbers cannot be read as strings; a failed conversion reports the earlier alarm; arrays are reported as DBF_LONG. Not modelled: Any and Union values. Limits, precision, units and alarm message: C102. |
| C89 | The options of a PVA link are those written in its JSON text, as documented | partial | Proved for every map whose members have documented values within range. Violated by the code (negations proved): MSS is taken as MS where the documentation says MSI; monorder is cut to +-1024 and wraps modulo 2^32. Reals and arrays (the link is rejected) are not modelled. |
| C90 | Text given for a real is read as the nearest real, other text is refused | partial | Proved for every string: a number which is 0 or at least 2^-1022 is read as the nearest double (ties to even); one which is exactly a double is read as that double, however small; too large is refused; what is accepted is a number, inf or nan. Not true of the code: a number below 2^-1022 which is not exactly a double is refused although a nearest double exists (C90_tiny), so that the text written for the smallest normal double can not be read again (C90_min): std::stod reports ERANGE on underflow. Round trip: within one part in 100000 and stable (C90_back), whole numbers below a million exact (C90_whole), 0, inf, nan (C90_special). Trusted: glibc's strtod rounds correctly and sets ERANGE on inexact tiny results, with tininess detected before or after rounding (both are covered); the C locale. |
| C91 | A get of a group shows all members, as they were at one instant if it is atomic | partial | Proved for all schedules: an atomic get replies the state of all members, constants included, at one instant of the get; without atomic each member with a record is shown at one instant of its own; one answer; an error only if a member could not be read; the get ends after a bounded number of its own steps with nothing locked. The code violates the rest: without atomic, constant members are not part of the reply (C91_const_missing). C91_not_one shows that atomic is needed for one common instant. Values are numbers; conversions of record values are not modelled. |
| C92 | discover() tells each listener of every server which comes or goes, until it is cancelled | partial | Proved for every interleaving in which the list of listeners is not changed while the other thread goes through it, and callbacks do not cancel. The code breaks the rest: the list is changed without the lock (C92_race), cancel does not wait for a callback on the UDP thread (C92_running), release during one ends the process (C92_terminated), a callback which cancels its own operation uses a freed node (C92_self_cancel) or waits for ever (C92_deadlock), and a ping does not report servers which are already tracked (C92_ping_late), nor is it sent if another listener is in place (C92_ping_second). |
| C93 | A client which reads slowly holds up only itself, and gets everything once it reads | partial | Nothing is held back for ever: proved for every history and every order of the steps which follow. The bound is false of the code: whether too much waits is only looked at when the client sends something, so that nothing is held back for a client which only subscribes (C93_unbounded), and a subscription which is being sent goes on although reading was suspended (C93_suspended). |
| C94 | Group definitions are read as they are written, or rejected | partial | Proved for all definitions which follow the schema, in any number of records and files: the recorded groups are exactly those written (C94_recorded), unknown keys are reported (C94_warned, C94_warned_first). The code violates the rest: no JSON text is ever rejected, since the callbacks return -1 for an exception and yajl stops at 0 only (C94_silent); an array, an object, a null or an order which is no number as the last value of a field ends the IOC by an assertion (C94_abort_*); fields of a group without a name go to the group before (C94_wrong_group); after an object which is too deep the rest is dropped silently (C94_rest_lost); a field without options is dropped silently (C94_empty_field); warnings are repeated for later records (C94_warned_again); one bad file stops the files after it (C94_bad_file). |
| C95 | dbLoadGroup() adds and removes files with group definitions | partial | Proved for calls of dbLoadGroup(): the files read are those asked for, in order (C95_files, C95_groups, C95_no_file). The code violates it for the command of the IOC shell: it reads the files into an object which is destroyed at once, so that the list is empty after any command and no group of a file is made (C95_shell_empty, C95_shell_lost). "*" without the sign removes all files (C95_star). |
| C96 | The value of a record, put and read | partial | Proved for all fields and all values which they can hold, and what becomes of all strings, indices, arrays and long strings. The code breaks the rest, with a successful put: strings are cut at 39 bytes and at NUL, an index is taken modulo 65536, arrays and long strings are cut; an array of choices can neither be read nor written; a full char array and a description of 40 characters are read without their last character; an empty array of capacity one is read as zero (all proved). Not modelled: links, filters, values of other types than that of the field. |
| C97 | The builders of normative types give the fields of the normative type | partial | Proved: for every type code and all options NTScalar gives exactly the fields of a separate table, and throws for every other code; NTEnum; NTTable and its labels for every list of columns of scalars with distinct names; NTURI for every list of arguments. Not so, proved: two columns of the same name end the program at an assertion when the type is built; a column may be a structure without fields; the choices floatValue and doubleValue of NTNDArray are scalars, the normative type has arrays. The values assigned by NTURI::call(): C100_call. |
| C98 | The type of a group PV has exactly the fields its mappings call for | partial | Proved: for every list of mappings which agree, the type is built and has, path by path, exactly the code and id which the mappings call for, with record._options. Not so, proved: a mapping of type structure with a path of more than one component, a.b, places the structure and its id at a.a, and a.b does not exist; a mapping to a[0] makes no array; mappings which disagree (a is a number for one and a structure for another) leave the group without a type. Missing: link fields, for which an exception is thrown; structure mappings with longer paths are excluded by a hypothesis, because of the first negation. |
| C99 | A value printed lists its fields by names which find them, and shows their content | partial | Proved: for every value in which no Any holds a structure and no Union has a structure before the selected choice, the delta print-out lists exactly the fields to be listed, each with an expression which finds it in the sense of C18; in order and once for a structure without nested values; every field is one line; scalars other than reals are told apart; arrays are cut at the limit. The code violates the rest: a Union with a structure before other choices has the content of one choice printed under the name of another, or indexes past the end of a vector (C99_choice); a field of a structure inside of an Any is printed with a name which does not find it (C99_any); the limit is not applied to arrays of structures in delta format (C99_limit); the default (tree) format prints int8_t and uint8_t scalars as raw characters (C99_int8). Not modelled: the lines of compound fields in tree format, the text of reals (a parameter). |
| C100 | A remote procedure call sends the arguments which were given | partial | Proved: for all lists of arguments with distinct valid names, each a number, text, array of those, or a structure of any type, the NTURI sent has the path, the fields of the query in order, their types, and the content of each field which is marked or in a marked structure; a second argument of the same name is refused; NTURI::call() assigns in order and refuses too many. The code violates the rest, proved: fields of a structure which are not marked are sent as default (C100_unmarked); with rpc(name, value) all arguments of arg() are dropped without notice, as in the documented example (C100_both); an array of values is accepted by arg() but exec() throws (C100_values); an Any arrives nested in two more (C100_any); a union is refused (C100_union); a name which is not valid is accepted by arg(), exec() throws (C100_name). Not modelled: arguments of NTURI::call() which are Values; structures with a union or an array of structures among the fields sent (excluded by Allowed). |
| C101 | A server can be reached where it says | partial | Proved when no port is given with an interface: every listener has the port that is named, every address is accepted, the port asked for is used if free (C101_reachable_partial, C101_preferred), one interface always starts (C101_fallback), UDP (C101_udp). The code violates the rest: interfaces from the environment always carry the port, so with a second server on the host the constructor throws (C101_second) or one interface listens on a port nobody is told (C101_half); ports with interfaces are not ignored as documented (C101_port); an interface with the wildcard cannot start (C101_overlap); a list of unusable interfaces means all interfaces (C101_typo). The operating system's bind() is a parameter. |
| C102 | Limits, precision, units and alarm message through a PVA link are those of the target | partial | Proved for every usable type and content: numeric limits, precision within a short, units. The code violates the rest: without such a field, or for a target which is not a structure, the call succeeds and leaves the caller's memory as it was (C102_missing, C102_plain); a larger precision wraps (C102_precision_cut); a message for which there is just enough room loses its last character (C102_message_cut). Limits of type Any or Union are taken as not convertible. |
| C103 | The multicast shim sends on what it receives | partial | Proved for searches with an IPv4 address to reply to: every one which is received is sent to each destination (C103_sent_partial), and is the same search for receivers in a group (C103_search_partial) and, after being passed on, for every process of a single host (C103_unicast_partial).  The property does not hold of the code otherwise: beacons are sent with the command code of a search, so that nobody sees them (C103_beacon); a search or beacon with an IPv6 address fails an assertion, which anyone can cause with one packet (C103_abort, C103_abort_packet); the option -p is refused (C103_port: no ':' after p in the getopt string).  Not modelled: parsing of the addresses of the command line, time to live and interface of a destination. |
| C104 | A client searches where it is configured to | partial | Proved for all configurations whose entries keep their meaning as text (C64): the destinations are the entries of the list in order with the configured port, each is marked as unicast just if it is neither a multicast group nor a broadcast address of this host, each packet goes once to each destination and each connected name server; unreadable addresses are skipped; readable interfaces get listeners at the configured port. Violated by the code (negations proved): an unreadable name server is logged as ignored but kept, and the context can not be created (C104_servers_malformed, given that no socket can be made for no family); the listener on [::] which accompanies 0.0.0.0 has port zero (C104_beacons_v6); 255.255.255.255 is marked as unicast (C104_limited); 10.0.0.1 and 10.0.0.1:5076 are both sent to (C104_twice). Errors of bind() and sendto(), and reconnecting to name servers, are not modelled. |
| C105 | Statistics, room and flow control levels of a subscription | partial | The code violates the property: stats() stores the number of combined updates as nQueue, and leaves nSquash alone (C105_reported, C105_misreported); a reset forgets those which wait (C105_reset); the server takes every client which does not ask for a percentage to acknowledge each update, so that setWatermarks() has no effect and the application is told too early (C105_levels_void, C105_early); 1% is taken for all of the queue (C105_percent); above 100% server and client disagree, and the application may wait forever (C105_stalls). Proved: what post() returns, the maximum, the other statistics, that the application is told exactly when the level in force is exceeded, and the count and default of ackAny at the client. |
| C106 | pvxput and pvxcall send what their arguments say | partial | The code violates the property: pvxput which is interrupted exits with 0 (C106_interrupted), and takes the last of two texts for one field without a word (C106_twice). Proved for all arguments: what is sent by pvxput (except names with <, [ or -) and by pvxcall (for proper field names), what is refused, and the exit status (pvxput: unless interrupted). |
| C107 | What the library believes of the network interfaces of its host was true not long ago | partial | Proved for all histories: age of positive and negative answers, rate of readings. False, with witnesses: the loopback interface is among the external ones (C107_loopback); an address which is also the broadcast address of another interface is not taken for an address of the host (C107_clash); a second name of an interface is not found (C107_alias); address_of() keeps an address which its own second reading no longer has (C107_gone); one failure of getifaddrs() forgets everything (C107_forgets, C107_failed). Which of several equal entries of the multimap is found is fixed in the model to the first one. |
| C108 | A printed type can be told from its text | partial | Proved by unique decodability of the printed form: for IDs without quotation marks and names without NUL, the text of a definition determines it, and the text of the type of a value determines it up to the IDs of element types of arrays (and fully if there are none). Where the code violates the property: the tree format does not print the ID of the element type of struct[] and union[] (C108_array_id); IDs are not escaped, so an ID with a quotation mark makes a type print like another (C108_quote, C108_quote_value); a name is only checked up to a NUL, and the rest is printed (C108_nul). |
| C109 | A connection is kept while both sides are alive, and given up soon after one is not | partial | Proved for all schedules: with echo period + lateness of timers + there and back below the timeouts of both sides the connection is kept (C109_kept_partial); this is met whenever both sides have the same timeout (C109_same) or the server's is above 15 s (C109_any_client). Detection of a silent peer, news of a close, attempts: in full. The code violates the rest: the client derives its period from its own timeout only, so a server with a timeout below 15 s (EPICS_PVA_CONN_TMO below 11.25) drops idle clients which have the default, with a perfect network (C109_mismatch). The timers of libevent are part of the trusted model; write timeouts and suspended reading (C93) are not modelled. |
| C110 | The documented work queue loses no event and never blocks | partial | All but the last sentence is proved. False of the code: pvxmonitor returns when nothing more can come; a PV which the server refuses never yields Finished, so pvxmonitor waits for ever (C110_endless, C110_refused), as it does without any PV (C110_none). A second SIGINT may block in push() (C110_second_interrupt). |
| C111 | pvxget, pvxinfo and pvxlist print each answer once, end when all are in, and tell by the exit status whether all was got | partial | Proved of the programs as modelled: what is printed, statuses 0, 1 and 2 of pvxget, return as soon as all values (pvxget) or answers (pvxinfo, pvxlist) are in, and exactly which endpoints pvxlist prints. The property as stated fails, and the negations are proved: pvxget does not count an error, so it waits for the time out (C111_get_error); without a name pvxget and pvxinfo wait for the time out (C111_none); pvxinfo exits with 0 although every name failed (C111_info_deaf, C111_info_errors); pvxlist with 0 in any case (C111_list_zero); a server with two endpoints may be listed twice, or be left with an endpoint which is not listed (C111_listed_twice, C111_listed_gone). Not modelled: options, the text printed, and that in pvxlist the counter of outstanding answers is out of scope when the callbacks run. |
| C112 | What a peer sends bounds what it makes the receiver keep | partial | Proved for values of every type (C112_value, C112_typed) and for types which add nothing to the cache (C112_type_partial). The code does not have the rest: by defining and referring to cached types within one message of 10 kB a peer makes the receiver build a type of 10^20 nodes (C112_hundred, C112_unbounded), and five bytes are enough to ask for an array of 4 294 967 295 elements (C112_asks). |
| C113 | Each check of a test program is reported once, with its result | partial | Proved that in every history each check which is begun is reported once, is pending, or is dropped in one of two ways (C113_count), and the results of all comparisons. The code drops checks: one with an empty message is not reported, also if it failed (C113_lost_silent), one over which another is assigned neither (C113_lost_assigned), nor that of testThrows() if something other than a std::exception is thrown (C113_alien). If regexec() fails a check passes (C113_regex). Regular expressions and the formatting of values are not modelled. |
| C114 | pvxrefdiff shows what has changed, and dbpvar counts what there is | proved | Counters are assumed to be below 2^63. Of dbpvar the last line is modelled. |
| C115 | The PVA server of an IOC serves while the IOC runs, if QSRV is enabled | partial | Proved for the life of the IOC. The code does not have the rest: the hook which adds the sources is registered and adds them also when QSRV is turned off, so records are served all the same (C115_not_off, C115_off_false); and ioc::server() does not hold its mutex, since the guard has no name, so it may give a Server without an instance during shutdown (C115_server_empty). Which hooks EPICS Base calls is an assumption; start() and stop() of the server are C66 and others. |
| C116 | pvxvct shows what it was asked for, and nothing else | partial | Proved for 1 to 32 bits. The code does not have the rest: for /0 the shift is by 32, which C++ does not define, and which on PCs lets through one address rather than all (C116_zero); the test for a bad number of bits never throws, so that /33 and more are accepted (C116_too_many, C116_thirty_three). |
| C117 | Statistics of a client subscription | partial | All but one clause are proved for every history. The longest queue is not: Connected, Disconnect and a refusal are queued without being counted, and after a reset what waits is not counted until the next update; the negations are proved, and what is reported is characterised exactly. |
| C118 | Things initialised once | partial | Proved for threadOnce_() and every interleaving. Not so for users of the library: the template threadOnce through which all calls are made is noexcept, so a failure ends the process instead of being reported (C118_fatal); and a function which asks for itself hangs all requests (C118_recursive). |
| C119 | Byte counters in reports | partial | Sent bytes: proved. Received bytes: but for messages of nearly 4 GB, counted modulo 2^32. Channels against their connection: proved for a server, but for a reset in the middle of a segmented message; false for a client, whose channels keep counters of earlier connections and of the time before they are listed. Negations proved. |
| C120 | A timer calls its callback at most once, and never after it was cancelled | partial | Proved for every interleaving: at most one call, none after cancel() or the destructor return, the result of cancel() is exact. The code violates the rest: a callback which cancels or drops its own timer is destroyed while it runs (C120_freed, C120_freed_false); after the server was stopped cancel() throws in place of a result (C120_stopped); an exception which is not a std::exception ends the process (C120_throws). libevent's removal of events is assumed as described in Model/Timer. |
| C121 | What is encoded is what is sent, however the buffer grows | partial | Proved for both growing buffers, any sizes of blocks, refusals of memory, and arrays in pieces; they refine the buffer of Model/Wire. The code violates the rest: skip() when there is some room but not enough advances by that room and then by all of it again (C121_skip, C121_skip_false). After a fault which an encoder finds, what is in the block is not handed on (C121_fault). |
| C122 | A message can be logged by any logger at any level, and shows when, how important and from whom | partial | Proved: the prefix for all names which leave it within 60 bytes, and exactly when memory outside of the buffer is written (C122_safe); critical messages; dumps, in full. The code violates the rest: with time, level and name longer than 80 bytes in all, e.g. every name of 36 bytes or more at the error level with colours, bytes are written behind the buffer, because the result of snprintf() is taken as what was written (C122_overflow, C122_names, C122_safe_false); between 61 and 80 bytes the line break is cut (C122_long). |
| C123 | SIGINT and SIGTERM call the given function, once, in a thread | partial | The code violates three parts, each shown by a concrete run. The destructor sends a byte which the thread takes for a signal, so the function of every object is called, with or without a signal (C123_caused_false, C123_always); because of it, after one run() which interrupt() ended all later ones return at once (C123_run_forever). The loop at the end of the destructor does not wait for a signal handler in progress, which then writes to a closed socket and leaves onsig set, so no object can be made again (C123_open_false, C123_stuck). The rest is proved for all interleavings; the _partial theorems need that no handler is in progress when a destructor ends. |
| C124 | Counters of instances are exact | partial | For all interleavings the answer is the number of objects or one less, and does not wrap around; it is exact once no constructor is within registerICount(). The code violates exactness: a snapshot between the entry into the table and the increment which goes with it is one too low (C124_exact_false). A class is listed unless memory ran out, its name is used by another class (C124_taken) or its first constructor is not that far yet. |
| C125 | Scopes of indentation and of detail end as they began | partial | Indentation: in full, for all interleavings and orders. Level of detail: for all programs of nested scopes. The code violates the rest: a Detailed which outlives one made after it leaves the wrong level behind (C125_detail_false). A negative depth is accepted, and printing then does not end (C125_printed_false). Failure of iword() is not modelled. |
| C126 | Sockets are closed once, and multicast goes where it should | partial | Ownership: in full. Multicast: for all lists of destinations as long as setsockopt() succeeds. The code violates the rest: a failure of setsockopt() only is logged, and the datagram then is sent with the time to live or the interface of another destination (C126_mcast_false). That the system closes and delivers as told is assumed. |
| C127 | A channel goes to the server which said that it has it | partial | For all datagrams, messages, states and histories. The code violates the rest: a reply with fewer identifiers than it announces is acted upon as far as it goes before it is reported as invalid (C127_truncated), and bytes of a datagram after the end of its message are read as if they were part of it (C127_beyond). Channels with a server given by the application are left out. |
| C128 | A channel for which the application gives the server stays with this server | partial | For all histories in which no server refuses a channel it was given for; channels without a given server, and sharing, for all histories. The code violates the rest: handle_CREATE_CHANNEL() puts a refused channel among those to search for, also when the server was given, so that it then is requested from whichever server replies (C128_refused). Two texts for one server count as two servers. |
| C129 | A test which waits for a PVA link continues when the link is in the expected state | partial | When a wait ends: for all interleavings. That it is woken: for one thread at a time which waits for a link. The code violates the rest: the event wakes only one of several threads, and the other sleeps until the time limit aborts the test (C129_two). Of 2^32 updates during one wait the last is taken for none (excluded in C129_looks). |
<!-- status end -->

{
 "claims": [
  {
   "property": "C01",
   "status": "proved",
   "theorems": [
    "Pvxs.Props.C01_size_roundtrip",
    "Pvxs.Props.C01_size_too_big",
    "Pvxs.Props.C01_size_injective",
    "Pvxs.Props.C01_selector_roundtrip"
   ],
   "note": ""
  },
  {
   "property": "C02",
   "status": "proved",
   "theorems": [
    "Pvxs.Props.C02_layout",
    "Pvxs.Props.C02_host_independent",
    "Pvxs.Props.C02_host_independent_read",
    "Pvxs.Props.C02_roundtrip",
    "Pvxs.Props.C02_array_roundtrip"
   ],
   "note": ""
  },
  {
   "property": "C03",
   "status": "proved",
   "theorems": [
    "Pvxs.Props.C03_string_roundtrip",
    "Pvxs.Props.C03_null_string",
    "Pvxs.Props.C03_string_too_long",
    "Pvxs.Props.C03_string_array_roundtrip"
   ],
   "note": ""
  },
  {
   "property": "C04",
   "status": "partial",
   "theorems": [
    "Pvxs.Props.C04_status_nul_truncated",
    "Pvxs.Props.C04_status_roundtrip_partial",
    "Pvxs.Props.C04_status_prefix",
    "Pvxs.Props.C04_compact_form"
   ],
   "note": "The code cuts texts at the first NUL (negation proved); proved for NUL free texts, and for the prefix before NUL in general. Code 255 is excluded: not a member of the status enum."
  },
  {
   "property": "C05",
   "status": "proved",
   "theorems": [
    "Pvxs.Props.C05_header_roundtrip",
    "Pvxs.Props.C05_header_accept",
    "Pvxs.Props.C05_header_consumes"
   ],
   "note": "A little-endian sender must not itself set the MSB flag bit (hypothesis hf); no caller does."
  },
  {
   "property": "C06",
   "status": "proved",
   "theorems": [
    "Pvxs.Props.C06_int_inside",
    "Pvxs.Props.C06_size_inside",
    "Pvxs.Props.C06_selector_inside",
    "Pvxs.Props.C06_string_inside",
    "Pvxs.Props.C06_status_inside",
    "Pvxs.Props.C06_array_inside",
    "Pvxs.Props.C06_string_array_inside",
    "Pvxs.Props.C06_addr_inside",
    "Pvxs.Props.C06_mask_inside",
    "Pvxs.Props.C06_type_inside",
    "Pvxs.Props.C06_value_inside",
    "Pvxs.Props.C06_typed_value_inside",
    "Pvxs.Props.C06_update_inside",
    "Pvxs.Props.C06_value_depth",
    "Pvxs.Props.C06_depth_unbounded"
   ],
   "note": "For every decoder: consumes only a prefix of what was received, a fault consumes nothing more and cannot be cleared, success depends only on the bytes consumed. Recursion depth is bounded by the message length and by nothing smaller (C06_depth_unbounded): the code has no limit of its own for nested Any."
  },
  {
   "property": "C07",
   "status": "partial",
   "theorems": [
    "Pvxs.Props.C07_v4_roundtrip",
    "Pvxs.Props.C07_v4_is_mapped",
    "Pvxs.Props.C07_v6_mapped_changes_family",
    "Pvxs.Props.C07_v6_roundtrip_partial",
    "Pvxs.Props.C07_address_bytes_survive"
   ],
   "note": "IPv4-mapped IPv6 addresses come back as IPv4 (negation proved)."
  },
  {
   "property": "C08",
   "status": "partial",
   "theorems": [
    "Pvxs.Props.C08_bits_roundtrip",
    "Pvxs.Props.C08_no_trailing_zeros",
    "Pvxs.Props.C08_largest_masks_lost",
    "Pvxs.Props.C08_mask_roundtrip_partial"
   ],
   "note": "Fails for members >= 65528 (negation proved): the receiver's uint16_t size wraps."
  },
  {
   "property": "C09",
   "status": "partial",
   "theorems": [
    "Pvxs.Props.C09_construct",
    "Pvxs.Props.C09_findSet",
    "Pvxs.Props.C09_assign",
    "Pvxs.Props.C09_read_defined",
    "Pvxs.Props.C09_out_of_storage",
    "Pvxs.Props.C09_and",
    "Pvxs.Props.C09_or",
    "Pvxs.Props.C09_not",
    "Pvxs.Props.C09_size_mismatch",
    "Pvxs.Props.C09_not_breaks_findSet",
    "Pvxs.Props.C09_onlySet_partial",
    "Pvxs.Props.C09_onlySet_range_diverges",
    "Pvxs.Props.C09_or_assign",
    "Pvxs.Props.C09_and_assign",
    "Pvxs.Props.C09_or_assign_shrinks",
    "Pvxs.Props.C09_equal"
   ],
   "note": "Complement leaves bits above the size set, so findSet is wrong on complements; |= takes the size of its right operand, so members of a larger left operand are lost but still found by findSet (C09_or_assign_shrinks); onlySet(a,b) does not terminate unless b is a member or the size (negations proved)."
  },
  {
   "property": "C10",
   "status": "proved",
   "theorems": [
    "Pvxs.Props.C10_build",
    "Pvxs.Props.C10_type_roundtrip",
    "Pvxs.Props.C10_too_deep",
    "Pvxs.Props.C10_faithful",
    "Pvxs.Props.C10_injective"
   ],
   "note": "definitions accepted by the Member constructors; 'identical' is equality of the descriptor table, which C10_faithful shows determines the definition"
  },
  {
   "property": "C100",
   "status": "partial",
   "theorems": [
    "Pvxs.Props.Rpc.C100_args_partial",
    "Pvxs.Props.Rpc.C100_twice",
    "Pvxs.Props.Rpc.C100_none",
    "Pvxs.Props.Rpc.C100_call",
    "Pvxs.Props.Rpc.C100_unmarked",
    "Pvxs.Props.Rpc.C100_both",
    "Pvxs.Props.Rpc.C100_values",
    "Pvxs.Props.Rpc.C100_any",
    "Pvxs.Props.Rpc.C100_union",
    "Pvxs.Props.Rpc.C100_name"
   ],
   "note": "Proved: for all lists of arguments with distinct valid names, each a number, text, array of those, or a structure of any type, the NTURI sent has the path, the fields of the query in order, their types, and the content of each field which is marked or in a marked structure; a second argument of the same name is refused; NTURI::call() assigns in order and refuses too many. The code violates the rest, proved: fields of a structure which are not marked are sent as default (C100_unmarked); with rpc(name, value) all arguments of arg() are dropped without notice, as in the documented example (C100_both); an array of values is accepted by arg() but exec() throws (C100_values); an Any arrives nested in two more (C100_any); a union is refused (C100_union); a name which is not valid is accepted by arg(), exec() throws (C100_name). Not modelled: arguments of NTURI::call() which are Values; structures with a union or an array of structures among the fields sent (excluded by Allowed)."
  },
  {
   "property": "C101",
   "status": "partial",
   "theorems": [
    "Pvxs.Props.SrvAddr.C101_reachable_partial",
    "Pvxs.Props.SrvAddr.C101_udp",
    "Pvxs.Props.SrvAddr.C101_preferred",
    "Pvxs.Props.SrvAddr.C101_fallback",
    "Pvxs.Props.SrvAddr.C101_client",
    "Pvxs.Props.SrvAddr.C101_second",
    "Pvxs.Props.SrvAddr.C101_half",
    "Pvxs.Props.SrvAddr.C101_port",
    "Pvxs.Props.SrvAddr.C101_overlap",
    "Pvxs.Props.SrvAddr.C101_typo"
   ],
   "note": "Proved when no port is given with an interface: every listener has the port that is named, every address is accepted, the port asked for is used if free (C101_reachable_partial, C101_preferred), one interface always starts (C101_fallback), UDP (C101_udp). The code violates the rest: interfaces from the environment always carry the port, so with a second server on the host the constructor throws (C101_second) or one interface listens on a port nobody is told (C101_half); ports with interfaces are not ignored as documented (C101_port); an interface with the wildcard cannot start (C101_overlap); a list of unusable interfaces means all interfaces (C101_typo). The operating system's bind() is a parameter."
  },
  {
   "property": "C102",
   "status": "partial",
   "theorems": [
    "Pvxs.Props.LinkMeta.C102_limits_partial",
    "Pvxs.Props.LinkMeta.C102_missing",
    "Pvxs.Props.LinkMeta.C102_plain",
    "Pvxs.Props.LinkMeta.C102_disconnected",
    "Pvxs.Props.LinkMeta.C102_precision_partial",
    "Pvxs.Props.LinkMeta.C102_precision_cut",
    "Pvxs.Props.LinkMeta.C102_units",
    "Pvxs.Props.LinkMeta.C102_message_partial",
    "Pvxs.Props.LinkMeta.C102_message_cut"
   ],
   "note": "Proved for every usable type and content: numeric limits, precision within a short, units. The code violates the rest: without such a field, or for a target which is not a structure, the call succeeds and leaves the caller's memory as it was (C102_missing, C102_plain); a larger precision wraps (C102_precision_cut); a message for which there is just enough room loses its last character (C102_message_cut). Limits of type Any or Union are taken as not convertible."
  },
  {
   "property": "C103",
   "status": "partial",
   "theorems": [
    "Pvxs.Props.Mshim.C103_sent_partial",
    "Pvxs.Props.Mshim.C103_search_partial",
    "Pvxs.Props.Mshim.C103_unicast_partial",
    "Pvxs.Props.Mshim.C103_beacon",
    "Pvxs.Props.Mshim.C103_abort",
    "Pvxs.Props.Mshim.C103_abort_packet",
    "Pvxs.Props.Mshim.C103_port"
   ],
   "note": "Proved for searches with an IPv4 address to reply to: every one which is received is sent to each destination (C103_sent_partial), and is the same search for receivers in a group (C103_search_partial) and, after being passed on, for every process of a single host (C103_unicast_partial).  The property does not hold of the code otherwise: beacons are sent with the command code of a search, so that nobody sees them (C103_beacon); a search or beacon with an IPv6 address fails an assertion, which anyone can cause with one packet (C103_abort, C103_abort_packet); the option -p is refused (C103_port: no ':' after p in the getopt string).  Not modelled: parsing of the addresses of the command line, time to live and interface of a destination."
  },
  {
   "property": "C104",
   "status": "partial",
   "theorems": [
    "Pvxs.Props.CliAddr.C104_dests_partial",
    "Pvxs.Props.CliAddr.C104_send",
    "Pvxs.Props.CliAddr.C104_servers_partial",
    "Pvxs.Props.CliAddr.C104_servers_malformed",
    "Pvxs.Props.CliAddr.C104_beacons_partial",
    "Pvxs.Props.CliAddr.C104_beacons_v6",
    "Pvxs.Props.CliAddr.C104_builds_partial",
    "Pvxs.Props.CliAddr.C104_limited",
    "Pvxs.Props.CliAddr.C104_twice"
   ],
   "note": "Proved for all configurations whose entries keep their meaning as text (C64): the destinations are the entries of the list in order with the configured port, each is marked as unicast just if it is neither a multicast group nor a broadcast address of this host, each packet goes once to each destination and each connected name server; unreadable addresses are skipped; readable interfaces get listeners at the configured port. Violated by the code (negations proved): an unreadable name server is logged as ignored but kept, and the context can not be created (C104_servers_malformed, given that no socket can be made for no family); the listener on [::] which accompanies 0.0.0.0 has port zero (C104_beacons_v6); 255.255.255.255 is marked as unicast (C104_limited); 10.0.0.1 and 10.0.0.1:5076 are both sent to (C104_twice). Errors of bind() and sendto(), and reconnecting to name servers, are not modelled."
  },
  {
   "property": "C105",
   "status": "partial",
   "theorems": [
    "Pvxs.Props.MonStat.C105_room",
    "Pvxs.Props.MonStat.C105_highest_partial",
    "Pvxs.Props.MonStat.C105_highest_since",
    "Pvxs.Props.MonStat.C105_reported",
    "Pvxs.Props.MonStat.C105_rest",
    "Pvxs.Props.MonStat.C105_told_only",
    "Pvxs.Props.MonStat.C105_told",
    "Pvxs.Props.MonStat.C105_levels_partial",
    "Pvxs.Props.MonStat.C105_levels_void",
    "Pvxs.Props.MonStat.C105_percent",
    "Pvxs.Props.MonStat.C105_count",
    "Pvxs.Props.MonStat.C105_reachable_partial",
    "Pvxs.Props.MonStat.C105_stalls",
    "Pvxs.Props.MonStat.C105_misreported",
    "Pvxs.Props.MonStat.C105_reset",
    "Pvxs.Props.MonStat.C105_early",
    "Pvxs.Props.MonStat.C105_reported_since"
   ],
   "note": "The code violates the property: stats() stores the number of combined updates as nQueue, and leaves nSquash alone (C105_reported, C105_misreported); a reset forgets those which wait (C105_reset); the server takes every client which does not ask for a percentage to acknowledge each update, so that setWatermarks() has no effect and the application is told too early (C105_levels_void, C105_early); 1% is taken for all of the queue (C105_percent); above 100% server and client disagree, and the application may wait forever (C105_stalls). Proved: what post() returns, the maximum, the other statistics, that the application is told exactly when the level in force is exceeded, and the count and default of ackAny at the client."
  },
  {
   "property": "C106",
   "status": "partial",
   "theorems": [
    "Pvxs.Props.Tools.C106_put_partial",
    "Pvxs.Props.Tools.C106_put_refused",
    "Pvxs.Props.Tools.C106_single",
    "Pvxs.Props.Tools.C106_put_unclear",
    "Pvxs.Props.Tools.C106_twice",
    "Pvxs.Props.Tools.C106_call_partial",
    "Pvxs.Props.Tools.C106_call_unclear",
    "Pvxs.Props.Tools.C106_call_twice",
    "Pvxs.Props.Tools.C106_call_status",
    "Pvxs.Props.Tools.C106_put_status_partial",
    "Pvxs.Props.Tools.C106_put_failed",
    "Pvxs.Props.Tools.C106_done",
    "Pvxs.Props.Tools.C106_interrupted"
   ],
   "note": "The code violates the property: pvxput which is interrupted exits with 0 (C106_interrupted), and takes the last of two texts for one field without a word (C106_twice). Proved for all arguments: what is sent by pvxput (except names with <, [ or -) and by pvxcall (for proper field names), what is refused, and the exit status (pvxput: unless interrupted)."
  },
  {
   "property": "C107",
   "status": "partial",
   "theorems": [
    "Pvxs.Props.Ifm.C107_has_address",
    "Pvxs.Props.Ifm.C107_is_iface_partial",
    "Pvxs.Props.Ifm.C107_is_broadcast_partial",
    "Pvxs.Props.Ifm.C107_name_of_index",
    "Pvxs.Props.Ifm.C107_name_of_addr",
    "Pvxs.Props.Ifm.C107_index_of_partial",
    "Pvxs.Props.Ifm.C107_address_of_partial",
    "Pvxs.Props.Ifm.C107_all_external_partial",
    "Pvxs.Props.Ifm.C107_rate",
    "Pvxs.Props.Ifm.C107_often",
    "Pvxs.Props.Ifm.C107_loopback",
    "Pvxs.Props.Ifm.C107_clash",
    "Pvxs.Props.Ifm.C107_alias",
    "Pvxs.Props.Ifm.C107_gone",
    "Pvxs.Props.Ifm.C107_forgets",
    "Pvxs.Props.Ifm.C107_failed",
    "Pvxs.Props.Ifm.C107_wildcard"
   ],
   "note": "Proved for all histories: age of positive and negative answers, rate of readings. False, with witnesses: the loopback interface is among the external ones (C107_loopback); an address which is also the broadcast address of another interface is not taken for an address of the host (C107_clash); a second name of an interface is not found (C107_alias); address_of() keeps an address which its own second reading no longer has (C107_gone); one failure of getifaddrs() forgets everything (C107_forgets, C107_failed). Which of several equal entries of the multimap is found is fixed in the model to the first one."
  },
  {
   "property": "C108",
   "status": "partial",
   "theorems": [
    "Pvxs.Props.TyTxt.C108_typedef_partial",
    "Pvxs.Props.TyTxt.C108_empty",
    "Pvxs.Props.TyTxt.C108_value_total",
    "Pvxs.Props.TyTxt.C108_value_partial",
    "Pvxs.Props.TyTxt.C108_value_exact_partial",
    "Pvxs.Props.TyTxt.C108_array_id",
    "Pvxs.Props.TyTxt.C108_quote",
    "Pvxs.Props.TyTxt.C108_quote_value",
    "Pvxs.Props.TyTxt.C108_nul"
   ],
   "note": "Proved by unique decodability of the printed form: for IDs without quotation marks and names without NUL, the text of a definition determines it, and the text of the type of a value determines it up to the IDs of element types of arrays (and fully if there are none). Where the code violates the property: the tree format does not print the ID of the element type of struct[] and union[] (C108_array_id); IDs are not escaped, so an ID with a quotation mark makes a type print like another (C108_quote, C108_quote_value); a name is only checked up to a NUL, and the rest is printed (C108_nul)."
  },
  {
   "property": "C109",
   "status": "partial",
   "theorems": [
    "Pvxs.Props.Alive.C109_period",
    "Pvxs.Props.Alive.C109_kept_partial",
    "Pvxs.Props.Alive.C109_same",
    "Pvxs.Props.Alive.C109_any_client",
    "Pvxs.Props.Alive.C109_dead_server",
    "Pvxs.Props.Alive.C109_dead_client",
    "Pvxs.Props.Alive.C109_attempt",
    "Pvxs.Props.Alive.C109_told",
    "Pvxs.Props.Alive.C109_mismatch"
   ],
   "note": "Proved for all schedules: with echo period + lateness of timers + there and back below the timeouts of both sides the connection is kept (C109_kept_partial); this is met whenever both sides have the same timeout (C109_same) or the server's is above 15 s (C109_any_client). Detection of a silent peer, news of a close, attempts: in full. The code violates the rest: the client derives its period from its own timeout only, so a server with a timeout below 15 s (EPICS_PVA_CONN_TMO below 11.25) drops idle clients which have the default, with a perfect network (C109_mismatch). The timers of libevent are part of the trusted model; write timeouts and suspended reading (C93) are not modelled."
  },
  {
   "property": "C11",
   "status": "partial",
   "theorems": [
    "Pvxs.Props.C11_replay_partial",
    "Pvxs.Props.C11_define",
    "Pvxs.Props.C11_reference",
    "Pvxs.Props.C11_undefined_refused",
    "Pvxs.Props.C11_redefinition_ignored"
   ],
   "note": "the code keeps the first definition of a key, so the literal claim (most recent) is refuted by C11_redefinition_ignored and the first-definition form is proved for all histories"
  },
  {
   "property": "C110",
   "status": "partial",
   "theorems": [
    "Pvxs.Props.WQ.C110_order",
    "Pvxs.Props.WQ.C110_room",
    "Pvxs.Props.WQ.C110_second_interrupt",
    "Pvxs.Props.WQ.C110_awaited",
    "Pvxs.Props.WQ.C110_printed",
    "Pvxs.Props.WQ.C110_turn",
    "Pvxs.Props.WQ.C110_status",
    "Pvxs.Props.WQ.C110_returns",
    "Pvxs.Props.WQ.C110_endless",
    "Pvxs.Props.WQ.C110_refused",
    "Pvxs.Props.WQ.C110_none"
   ],
   "note": "All but the last sentence is proved. False of the code: pvxmonitor returns when nothing more can come; a PV which the server refuses never yields Finished, so pvxmonitor waits for ever (C110_endless, C110_refused), as it does without any PV (C110_none). A second SIGINT may block in push() (C110_second_interrupt)."
  },
  {
   "property": "C111",
   "status": "partial",
   "theorems": [
    "Pvxs.Props.Fetch.C111_printed",
    "Pvxs.Props.Fetch.C111_all_printed",
    "Pvxs.Props.Fetch.C111_get_zero",
    "Pvxs.Props.Fetch.C111_get_one",
    "Pvxs.Props.Fetch.C111_get_two",
    "Pvxs.Props.Fetch.C111_statuses",
    "Pvxs.Props.Fetch.C111_get_returns",
    "Pvxs.Props.Fetch.C111_get_error",
    "Pvxs.Props.Fetch.C111_none",
    "Pvxs.Props.Fetch.C111_info_zero",
    "Pvxs.Props.Fetch.C111_info_returns",
    "Pvxs.Props.Fetch.C111_info_deaf",
    "Pvxs.Props.Fetch.C111_info_errors",
    "Pvxs.Props.Fetch.C111_list_zero",
    "Pvxs.Props.Fetch.C111_listed",
    "Pvxs.Props.Fetch.C111_listed_all",
    "Pvxs.Props.Fetch.C111_listed_twice",
    "Pvxs.Props.Fetch.C111_listed_gone"
   ],
   "note": "Proved of the programs as modelled: what is printed, statuses 0, 1 and 2 of pvxget, return as soon as all values (pvxget) or answers (pvxinfo, pvxlist) are in, and exactly which endpoints pvxlist prints. The property as stated fails, and the negations are proved: pvxget does not count an error, so it waits for the time out (C111_get_error); without a name pvxget and pvxinfo wait for the time out (C111_none); pvxinfo exits with 0 although every name failed (C111_info_deaf, C111_info_errors); pvxlist with 0 in any case (C111_list_zero); a server with two endpoints may be listed twice, or be left with an endpoint which is not listed (C111_listed_twice, C111_listed_gone). Not modelled: options, the text printed, and that in pvxlist the counter of outstanding answers is out of scope when the callbacks run."
  },
  {
   "property": "C112",
   "status": "partial",
   "theorems": [
    "Pvxs.Props.Mem.C112_value",
    "Pvxs.Props.Mem.C112_typed",
    "Pvxs.Props.Mem.C112_type_partial",
    "Pvxs.Props.Mem.C112_type_fresh",
    "Pvxs.Props.Mem.C112_tower",
    "Pvxs.Props.Mem.C112_hundred",
    "Pvxs.Props.Mem.C112_unbounded",
    "Pvxs.Props.Mem.C112_asks",
    "Pvxs.Props.Mem.C112_asks_members",
    "Pvxs.Props.Mem.C112_asks_paid"
   ],
   "note": "Proved for values of every type (C112_value, C112_typed) and for types which add nothing to the cache (C112_type_partial). The code does not have the rest: by defining and referring to cached types within one message of 10 kB a peer makes the receiver build a type of 10^20 nodes (C112_hundred, C112_unbounded), and five bytes are enough to ask for an array of 4 294 967 295 elements (C112_asks)."
  },
  {
   "property": "C113",
   "status": "partial",
   "theorems": [
    "Pvxs.Props.TestCase.C113_text",
    "Pvxs.Props.TestCase.C113_once",
    "Pvxs.Props.TestCase.C113_silent",
    "Pvxs.Props.TestCase.C113_count",
    "Pvxs.Props.TestCase.C113_all_partial",
    "Pvxs.Props.TestCase.C113_lost_silent",
    "Pvxs.Props.TestCase.C113_lost_assigned",
    "Pvxs.Props.TestCase.C113_eq",
    "Pvxs.Props.TestCase.C113_arr",
    "Pvxs.Props.TestCase.C113_str",
    "Pvxs.Props.TestCase.C113_throws_partial",
    "Pvxs.Props.TestCase.C113_alien",
    "Pvxs.Props.TestCase.C113_regex"
   ],
   "note": "Proved that in every history each check which is begun is reported once, is pending, or is dropped in one of two ways (C113_count), and the results of all comparisons. The code drops checks: one with an empty message is not reported, also if it failed (C113_lost_silent), one over which another is assigned neither (C113_lost_assigned), nor that of testThrows() if something other than a std::exception is thrown (C113_alien). If regexec() fails a check passes (C113_regex). Regular expressions and the formatting of values are not modelled."
  },
  {
   "property": "C114",
   "status": "proved",
   "theorems": [
    "Pvxs.Props.Shell.C114_diff",
    "Pvxs.Props.Shell.C114_diff_order",
    "Pvxs.Props.Shell.C114_diff_none",
    "Pvxs.Props.Shell.C114_show",
    "Pvxs.Props.Shell.C114_dbpvar",
    "Pvxs.Props.Shell.C114_dbpvar_le",
    "Pvxs.Props.Shell.C114_dbpvar_links"
   ],
   "note": "Counters are assumed to be below 2^63. Of dbpvar the last line is modelled."
  },
  {
   "property": "C115",
   "status": "partial",
   "theorems": [
    "Pvxs.Props.IocLife.C115_enabled",
    "Pvxs.Props.IocLife.C115_commands",
    "Pvxs.Props.IocLife.C115_serves",
    "Pvxs.Props.IocLife.C115_silent",
    "Pvxs.Props.IocLife.C115_alive",
    "Pvxs.Props.IocLife.C115_again",
    "Pvxs.Props.IocLife.C115_not_off",
    "Pvxs.Props.IocLife.C115_off_false",
    "Pvxs.Props.IocLife.C115_server_partial",
    "Pvxs.Props.IocLife.C115_server_empty",
    "Pvxs.Props.IocLife.C115_server_only",
    "Pvxs.Props.IocLife.C115_kept"
   ],
   "note": "Proved for the life of the IOC. The code does not have the rest: the hook which adds the sources is registered and adds them also when QSRV is turned off, so records are served all the same (C115_not_off, C115_off_false); and ioc::server() does not hold its mutex, since the guard has no name, so it may give a Server without an instance during shutdown (C115_server_empty). Which hooks EPICS Base calls is an assumption; start() and stop() of the server are C66 and others."
  },
  {
   "property": "C116",
   "status": "partial",
   "theorems": [
    "Pvxs.Props.Vct.C116_net_partial",
    "Pvxs.Props.Vct.C116_host",
    "Pvxs.Props.Vct.C116_or",
    "Pvxs.Props.Vct.C116_none",
    "Pvxs.Props.Vct.C116_zero",
    "Pvxs.Props.Vct.C116_too_many",
    "Pvxs.Props.Vct.C116_thirty_three",
    "Pvxs.Props.Vct.C116_search",
    "Pvxs.Props.Vct.C116_beacon",
    "Pvxs.Props.Vct.C116_defaults",
    "Pvxs.Props.Vct.C116_mask"
   ],
   "note": "Proved for 1 to 32 bits. The code does not have the rest: for /0 the shift is by 32, which C++ does not define, and which on PCs lets through one address rather than all (C116_zero); the test for a bad number of bits never throws, so that /33 and more are accepted (C116_too_many, C116_thirty_three)."
  },
  {
   "property": "C117",
   "status": "partial",
   "theorems": [
    "Pvxs.Props.CliStat.C117_conserved",
    "Pvxs.Props.CliStat.C117_server",
    "Pvxs.Props.CliStat.C117_pipeline",
    "Pvxs.Props.CliStat.C117_max_partial",
    "Pvxs.Props.CliStat.C117_max_first_partial",
    "Pvxs.Props.CliStat.C117_max_le",
    "Pvxs.Props.CliStat.C117_max_now",
    "Pvxs.Props.CliStat.C117_max_false",
    "Pvxs.Props.CliStat.C117_max_reset",
    "Pvxs.Props.CliStat.C117_read"
   ],
   "note": "All but one clause are proved for every history. The longest queue is not: Connected, Disconnect and a refusal are queued without being counted, and after a reset what waits is not counted until the next update; the negations are proved, and what is reported is characterised exactly."
  },
  {
   "property": "C118",
   "status": "partial",
   "theorems": [
    "Pvxs.Props.Once.C118_once",
    "Pvxs.Props.Once.C118_after",
    "Pvxs.Props.Once.C118_ok",
    "Pvxs.Props.Once.C118_failed",
    "Pvxs.Props.Once.C118_progress",
    "Pvxs.Props.Once.C118_recursive",
    "Pvxs.Props.Once.C118_fatal"
   ],
   "note": "Proved for threadOnce_() and every interleaving. Not so for users of the library: the template threadOnce through which all calls are made is noexcept, so a failure ends the process instead of being reported (C118_fatal); and a function which asks for itself hangs all requests (C118_recursive)."
  },
  {
   "property": "C119",
   "status": "partial",
   "theorems": [
    "Pvxs.Props.Report.C119_tx",
    "Pvxs.Props.Report.C119_rx_partial",
    "Pvxs.Props.Report.C119_rx_wraps",
    "Pvxs.Props.Report.C119_channels_tx",
    "Pvxs.Props.Report.C119_channels_rx_partial",
    "Pvxs.Props.Report.C119_channels_rx_false",
    "Pvxs.Props.Report.C119_client_creating",
    "Pvxs.Props.Report.C119_client_again",
    "Pvxs.Props.Report.C119_read"
   ],
   "note": "Sent bytes: proved. Received bytes: but for messages of nearly 4 GB, counted modulo 2^32. Channels against their connection: proved for a server, but for a reset in the middle of a segmented message; false for a client, whose channels keep counters of earlier connections and of the time before they are listed. Negations proved."
  },
  {
   "property": "C12",
   "status": "partial",
   "theorems": [
    "Pvxs.Props.C12_wellformed_partial",
    "Pvxs.Props.C12_built_wellformed",
    "Pvxs.Props.C12_duplicate_accepted",
    "Pvxs.Props.C12_unusable_or_consistent",
    "Pvxs.Props.C12_construct_safe"
   ],
   "note": "Descriptions with distinct, undotted sibling names: the table and all nested tables are consistent. The decoder also accepts duplicate names (C12_duplicate_accepted); constructing a value of such a type throws (C12_unusable_or_consistent) and never reads outside the table (C12_construct_safe)."
  },
  {
   "property": "C120",
   "status": "partial",
   "theorems": [
    "Pvxs.Props.Timer.C120_once",
    "Pvxs.Props.Timer.C120_quiet",
    "Pvxs.Props.Timer.C120_truthful",
    "Pvxs.Props.Timer.C120_cancelled",
    "Pvxs.Props.Timer.C120_still",
    "Pvxs.Props.Timer.C120_returns",
    "Pvxs.Props.Timer.C120_null",
    "Pvxs.Props.Timer.C120_stopped",
    "Pvxs.Props.Timer.C120_freed_partial",
    "Pvxs.Props.Timer.C120_freed_false",
    "Pvxs.Props.Timer.C120_freed",
    "Pvxs.Props.Timer.C120_throws",
    "Pvxs.Props.Timer.C120_released"
   ],
   "note": "Proved for every interleaving: at most one call, none after cancel() or the destructor return, the result of cancel() is exact. The code violates the rest: a callback which cancels or drops its own timer is destroyed while it runs (C120_freed, C120_freed_false); after the server was stopped cancel() throws in place of a result (C120_stopped); an exception which is not a std::exception ends the process (C120_throws). libevent's removal of events is assumed as described in Model/Timer."
  },
  {
   "property": "C121",
   "status": "partial",
   "theorems": [
    "Pvxs.Props.OutBuf.C121_vector",
    "Pvxs.Props.OutBuf.C121_ev",
    "Pvxs.Props.OutBuf.C121_ev_refused",
    "Pvxs.Props.OutBuf.C121_array_ev",
    "Pvxs.Props.OutBuf.C121_array_vector",
    "Pvxs.Props.OutBuf.C121_array_refused",
    "Pvxs.Props.OutBuf.C121_wire",
    "Pvxs.Props.OutBuf.C121_wire_vector",
    "Pvxs.Props.OutBuf.C121_wire_ev",
    "Pvxs.Props.OutBuf.C121_fault",
    "Pvxs.Props.OutBuf.C121_skip_partial",
    "Pvxs.Props.OutBuf.C121_skip",
    "Pvxs.Props.OutBuf.C121_skip_false"
   ],
   "note": "Proved for both growing buffers, any sizes of blocks, refusals of memory, and arrays in pieces; they refine the buffer of Model/Wire. The code violates the rest: skip() when there is some room but not enough advances by that room and then by all of it again (C121_skip, C121_skip_false). After a fault which an encoder finds, what is in the block is not handed on (C121_fault)."
  },
  {
   "property": "C122",
   "status": "partial",
   "theorems": [
    "Pvxs.Props.LogMsg.C122_prefix_partial",
    "Pvxs.Props.LogMsg.C122_long",
    "Pvxs.Props.LogMsg.C122_overflow",
    "Pvxs.Props.LogMsg.C122_names",
    "Pvxs.Props.LogMsg.C122_safe",
    "Pvxs.Props.LogMsg.C122_safe_false",
    "Pvxs.Props.LogMsg.C122_abort",
    "Pvxs.Props.LogMsg.C122_dump",
    "Pvxs.Props.LogMsg.C122_lines"
   ],
   "note": "Proved: the prefix for all names which leave it within 60 bytes, and exactly when memory outside of the buffer is written (C122_safe); critical messages; dumps, in full. The code violates the rest: with time, level and name longer than 80 bytes in all, e.g. every name of 36 bytes or more at the error level with colours, bytes are written behind the buffer, because the result of snprintf() is taken as what was written (C122_overflow, C122_names, C122_safe_false); between 61 and 80 bytes the line break is cut (C122_long)."
  },
  {
   "property": "C123",
   "status": "partial",
   "theorems": [
    "Pvxs.Props.SigInt.C123_once",
    "Pvxs.Props.SigInt.C123_inside",
    "Pvxs.Props.SigInt.C123_alone",
    "Pvxs.Props.SigInt.C123_refused",
    "Pvxs.Props.SigInt.C123_heard",
    "Pvxs.Props.SigInt.C123_restored",
    "Pvxs.Props.SigInt.C123_ends",
    "Pvxs.Props.SigInt.C123_open_partial",
    "Pvxs.Props.SigInt.C123_sound_partial",
    "Pvxs.Props.SigInt.C123_open_false",
    "Pvxs.Props.SigInt.C123_stuck",
    "Pvxs.Props.SigInt.C123_caused_false",
    "Pvxs.Props.SigInt.C123_always",
    "Pvxs.Props.SigInt.C123_run_partial",
    "Pvxs.Props.SigInt.C123_run_signal",
    "Pvxs.Props.SigInt.C123_run_forever",
    "Pvxs.Props.SigInt.C123_run_false"
   ],
   "note": "The code violates three parts, each shown by a concrete run. The destructor sends a byte which the thread takes for a signal, so the function of every object is called, with or without a signal (C123_caused_false, C123_always); because of it, after one run() which interrupt() ended all later ones return at once (C123_run_forever). The loop at the end of the destructor does not wait for a signal handler in progress, which then writes to a closed socket and leaves onsig set, so no object can be made again (C123_open_false, C123_stuck). The rest is proved for all interleavings; the _partial theorems need that no handler is in progress when a destructor ends."
  },
  {
   "property": "C124",
   "status": "partial",
   "theorems": [
    "Pvxs.Props.InstCount.C124_close",
    "Pvxs.Props.InstCount.C124_exact_partial",
    "Pvxs.Props.InstCount.C124_alone",
    "Pvxs.Props.InstCount.C124_listed_partial",
    "Pvxs.Props.InstCount.C124_stays",
    "Pvxs.Props.InstCount.C124_taken",
    "Pvxs.Props.InstCount.C124_exact_false"
   ],
   "note": "For all interleavings the answer is the number of objects or one less, and does not wrap around; it is exact once no constructor is within registerICount(). The code violates exactness: a snapshot between the entry into the table and the increment which goes with it is one too low (C124_exact_false). A class is listed unless memory ran out, its name is used by another class (C124_taken) or its first constructor is not that far yet."
  },
  {
   "property": "C125",
   "status": "partial",
   "theorems": [
    "Pvxs.Props.Indent.C125_indent",
    "Pvxs.Props.Indent.C125_back",
    "Pvxs.Props.Indent.C125_printed",
    "Pvxs.Props.Indent.C125_scopes",
    "Pvxs.Props.Indent.C125_within",
    "Pvxs.Props.Indent.C125_detail_false",
    "Pvxs.Props.Indent.C125_printed_false"
   ],
   "note": "Indentation: in full, for all interleavings and orders. Level of detail: for all programs of nested scopes. The code violates the rest: a Detailed which outlives one made after it leaves the wrong level behind (C125_detail_false). A negative depth is accepted, and printing then does not end (C125_printed_false). Failure of iword() is not modelled."
  },
  {
   "property": "C126",
   "status": "partial",
   "theorems": [
    "Pvxs.Props.Sock.C126_once",
    "Pvxs.Props.Sock.C126_held",
    "Pvxs.Props.Sock.C126_closed",
    "Pvxs.Props.Sock.C126_self",
    "Pvxs.Props.Sock.C126_move",
    "Pvxs.Props.Sock.C126_sent",
    "Pvxs.Props.Sock.C126_mcast_partial",
    "Pvxs.Props.Sock.C126_mcast_false"
   ],
   "note": "Ownership: in full. Multicast: for all lists of destinations as long as setsockopt() succeeds. The code violates the rest: a failure of setsockopt() only is logged, and the datagram then is sent with the time to live or the interface of another destination (C126_mcast_false). That the system closes and delivers as told is assumed."
  },
  {
   "property": "C127",
   "status": "partial",
   "theorems": [
    "Pvxs.Props.ReplyRx.C127_datagram_partial",
    "Pvxs.Props.ReplyRx.C127_message_partial",
    "Pvxs.Props.ReplyRx.C127_done",
    "Pvxs.Props.ReplyRx.C127_pong",
    "Pvxs.Props.ReplyRx.C127_history",
    "Pvxs.Props.ReplyRx.C127_truncated",
    "Pvxs.Props.ReplyRx.C127_beyond"
   ],
   "note": "For all datagrams, messages, states and histories. The code violates the rest: a reply with fewer identifiers than it announces is acted upon as far as it goes before it is reported as invalid (C127_truncated), and bytes of a datagram after the end of its message are read as if they were part of it (C127_beyond). Channels with a server given by the application are left out."
  },
  {
   "property": "C128",
   "status": "partial",
   "theorems": [
    "Pvxs.Props.ForcedServer.C128_given_partial",
    "Pvxs.Props.ForcedServer.C128_any",
    "Pvxs.Props.ForcedServer.C128_shared",
    "Pvxs.Props.ForcedServer.C128_refused",
    "Pvxs.Props.ForcedServer.C128_own"
   ],
   "note": "For all histories in which no server refuses a channel it was given for; channels without a given server, and sharing, for all histories. The code violates the rest: handle_CREATE_CHANNEL() puts a refused channel among those to search for, also when the server was given, so that it then is requested from whichever server replies (C128_refused). Two texts for one server count as two servers."
  },
  {
   "property": "C129",
   "status": "partial",
   "theorems": [
    "Pvxs.Props.LinkWait.C129_wakes_partial",
    "Pvxs.Props.LinkWait.C129_ends",
    "Pvxs.Props.LinkWait.C129_looks",
    "Pvxs.Props.LinkWait.C129_two",
    "Pvxs.Props.LinkWait.C129_continues_partial"
   ],
   "note": "When a wait ends: for all interleavings. That it is woken: for one thread at a time which waits for a link. The code violates the rest: the event wakes only one of several threads, and the other sleeps until the time limit aborts the test (C129_two). Of 2^32 updates during one wait the last is taken for none (excluded in C129_looks)."
  },
  {
   "property": "C13",
   "status": "partial",
   "theorems": [
    "Pvxs.Props.C13_value_partial",
    "Pvxs.Props.C13_type_and_value_partial",
    "Pvxs.Props.C13_union_array",
    "Pvxs.Props.C13_union_array_flattened",
    "Pvxs.Props.C13_bool_array_raw"
   ],
   "note": "All types without Union[]: every field equal after the round trip. With Union[] the exact result is stated (C13_union_array); C13_union_array_flattened shows that the English property is false there."
  },
  {
   "property": "C14",
   "status": "partial",
   "theorems": [
    "Pvxs.Props.C14_update_partial"
   ],
   "note": "Structures of fewer than 2^16 nodes, any marks, any mask, any previous content of the receiver: exactly the selected fields change. The content of Union[] fields arrives as described by C13_union_array."
  },
  {
   "property": "C15",
   "status": "proved",
   "theorems": [
    "Pvxs.Props.C15_step",
    "Pvxs.Props.C15_history",
    "Pvxs.Props.C15_isMarked",
    "Pvxs.Props.C15_clear",
    "Pvxs.Props.C15_clear_all"
   ],
   "note": "marks over all operation histories on a heap of structures; mark() also marks the fields holding the storage (enclosing Union/Any/array), never parents inside the structure; clear() gives the field and all below it the content of a new value, unmarked"
  },
  {
   "property": "C16",
   "status": "proved",
   "theorems": [
    "Pvxs.Props.C16_iall",
    "Pvxs.Props.C16_ichildren",
    "Pvxs.Props.C16_imarked"
   ],
   "note": "Struct iteration; iteration over a Union's choices is a list lookup and not stated"
  },
  {
   "property": "C17",
   "status": "partial",
   "theorems": [
    "Pvxs.Props.C17_assign_partial",
    "Pvxs.Props.C17_program_names",
    "Pvxs.Props.C17_odd_name",
    "Pvxs.Props.C17_union_selection",
    "Pvxs.Props.C17_union_empty",
    "Pvxs.Props.C17_union_keeps",
    "Pvxs.Props.C17_compound_array"
   ],
   "note": "same-type Struct assignment proved except Unions, re-typed array elements and peer-sent odd names; those cases violate the property, witnesses proved"
  },
  {
   "property": "C18",
   "status": "partial",
   "theorems": [
    "Pvxs.Props.Lkp.C18_partial",
    "Pvxs.Props.Lkp.C18_modify_partial",
    "Pvxs.Props.C18_dotted_partial",
    "Pvxs.Props.C18_scalar",
    "Pvxs.Props.Lkp.C18_throws",
    "Pvxs.Props.Lkp.C18_odd_name"
   ],
   "note": "every expression, including <, ->, ->name and [n], proved to find exactly what it names, for every value of a type without odd names; the code throws instead of giving an invalid Value for an index which is not a number (C18_throws), and can not find a member whose name, sent by a peer, has a special character (C18_odd_name)"
  },
  {
   "property": "C19",
   "status": "proved",
   "theorems": [
    "Pvxs.Props.C19_valid_iff",
    "Pvxs.Props.C19_isarray",
    "Pvxs.Props.C19_arrayOf",
    "Pvxs.Props.C19_scalarOf",
    "Pvxs.Props.C19_inverse",
    "Pvxs.Props.C19_preserve",
    "Pvxs.Props.C19_size",
    "Pvxs.Props.C19_storedAs",
    "Pvxs.Props.C19_name_injective",
    "Pvxs.Props.C19_null_not_valid"
   ],
   "note": "all 256 codes, by kernel evaluation of the complete table"
  },
  {
   "property": "C20",
   "status": "proved",
   "theorems": [
    "Pvxs.Props.C20_chunks",
    "Pvxs.Props.C20_messages",
    "Pvxs.Props.C20_garbage"
   ],
   "note": "Receive loop, watermarks and libevent's delivery are modelled; handlers are an arbitrary state transformer which may close the connection. Full state equality for any two ways of cutting the same stream, and a protocol-level specification of what is acted on."
  },
  {
   "property": "C21",
   "status": "proved",
   "theorems": [
    "Pvxs.Props.C21_segments",
    "Pvxs.Props.C21_violation",
    "Pvxs.Props.C20_messages"
   ],
   "note": "Segments with interleaved control messages; violations close and discard."
  },
  {
   "property": "C22",
   "status": "proved",
   "theorems": [
    "Pvxs.Props.C22_replies",
    "Pvxs.Props.C22_setup",
    "Pvxs.Props.C22_silence",
    "Pvxs.Props.C22_destroy",
    "Pvxs.Props.C22_answer"
   ],
   "note": "all interleavings of peer messages and application calls on one connection; application callbacks are not reentrant"
  },
  {
   "property": "C23",
   "status": "partial",
   "theorems": [
    "Pvxs.Props.C23_stale_reply",
    "Pvxs.Props.C23_second_reply",
    "Pvxs.Props.C23_reply_partial"
   ],
   "note": "the property is false of the code: a reply through an old handle answers a newer execution. Proved for applications which use a handle once and not after cancellation"
  },
  {
   "property": "C24",
   "status": "partial",
   "theorems": [
    "Pvxs.Props.C24_at_most_once",
    "Pvxs.Props.C24_teardown",
    "Pvxs.Props.C24_disconnect_partial",
    "Pvxs.Props.C24_channel_partial",
    "Pvxs.Props.C24_cancel",
    "Pvxs.Props.C24_lost_close",
    "Pvxs.Props.C24_lost_close_error",
    "Pvxs.Props.C24_lost_close_monitor",
    "Pvxs.Props.C24_lost_close_info",
    "Pvxs.Props.C24_id_not_released",
    "Pvxs.Props.C24_reuse_abort"
   ],
   "note": "at most once, and exactly once on teardown; the code never calls it for operations which end by a reply"
  },
  {
   "property": "C25",
   "status": "partial",
   "theorems": [
    "Pvxs.Props.C25_order_partial",
    "Pvxs.Props.C25_content",
    "Pvxs.Props.C25_last_value",
    "Pvxs.Props.C25_bound",
    "Pvxs.Props.C25_reposted"
   ],
   "note": "proved for applications which post each Value once; C25_reposted shows the violation when the same Value is posted again (squashing modifies shared storage)"
  },
  {
   "property": "C26",
   "status": "partial",
   "theorems": [
    "Pvxs.Props.C26_last",
    "Pvxs.Props.C26_complete",
    "Pvxs.Props.C26_refused",
    "Pvxs.Props.C26_delivered_partial",
    "Pvxs.Props.C26_lost",
    "Pvxs.Props.C26_stuck"
   ],
   "note": "order, uniqueness, completeness and refusal proved for all histories; delivery fails when a stop races with the scheduled end (C26_lost) or the window is exhausted (C26_stuck)"
  },
  {
   "property": "C27",
   "status": "partial",
   "theorems": [
    "Pvxs.Props.C27_granted_partial",
    "Pvxs.Props.C27_granted_running",
    "Pvxs.Props.C27_after_finish",
    "Pvxs.Props.C27_after_stop"
   ],
   "note": "holds if the subscription is neither finished nor stopped; violated otherwise"
  },
  {
   "property": "C28",
   "status": "partial",
   "theorems": [
    "Pvxs.Props.C28_scheduled_partial",
    "Pvxs.Props.C28_stall"
   ],
   "note": "holds without pipelining; violated with it: an acknowledgement does not schedule a transmission"
  },
  {
   "property": "C29",
   "status": "partial",
   "theorems": [
    "Pvxs.Props.C29_independent_partial",
    "Pvxs.Props.C29_shared_value",
    "Pvxs.Props.C29_sharedpv",
    "Pvxs.Props.C30_converges_partial"
   ],
   "note": "Proved for applications which post each Value to one subscription (C29_independent_partial). SharedPV does not: it passes one copy to all subscribers; C29_sharedpv shows a subscriber which misses a value, and sees values out of order, because another is slow. C30_converges_partial: the last value is right nevertheless."
  },
  {
   "property": "C30",
   "status": "partial",
   "theorems": [
    "Pvxs.Props.C30_value",
    "Pvxs.Props.C30_fetch",
    "Pvxs.Props.C30_order_partial",
    "Pvxs.Props.C30_calls_partial",
    "Pvxs.Props.C30_converges_partial",
    "Pvxs.Props.C30_attaches",
    "Pvxs.Props.C30_stays",
    "Pvxs.Props.C30_missed_post",
    "Pvxs.Props.C30_forgotten",
    "Pvxs.Props.C30_not_forgotten"
   ],
   "note": "fetch()/GET in full. Subscribers: under the hypothesis that the application does not call open/post/close in the window between the snapshot and the registration of that subscriber; C30_missed_post shows that a post in this window is lost, C30_not_forgotten that a subscription which ends in it stays registered."
  },
  {
   "property": "C31",
   "status": "partial",
   "theorems": [
    "Pvxs.Props.C31_open",
    "Pvxs.Props.C31_none_waits",
    "Pvxs.Props.C31_post_refused",
    "Pvxs.Props.C31_post",
    "Pvxs.Props.C31_fetch_refused",
    "Pvxs.Props.C31_close",
    "Pvxs.Props.C31_clients_partial",
    "Pvxs.Props.C31_last_twice",
    "Pvxs.Props.C31_first_twice"
   ],
   "note": "open/post/fetch/close in full. First and last client callbacks for histories without close(); C31_last_twice and C31_first_twice show that close() breaks their alternation."
  },
  {
   "property": "C32",
   "status": "partial",
   "theorems": [
    "Pvxs.Props.C32_mask",
    "Pvxs.Props.C32_refused",
    "Pvxs.Props.C32_testmask",
    "Pvxs.Props.C32_sent_partial",
    "Pvxs.Props.C32_sends_more"
   ],
   "note": "The mask computed for every type (below 2^16 fields) and every request is exactly the requested set, all others are refused; what is sent equals marked and selected fields when only fields (not structures) are marked. The full claim about what is sent is false: marking a structure sends parts which were not requested (C32_sends_more)."
  },
  {
   "property": "C33",
   "status": "partial",
   "theorems": [
    "Pvxs.Props.C33_accepts",
    "Pvxs.Props.C33_refused",
    "Pvxs.Props.C33_result",
    "Pvxs.Props.C33_field",
    "Pvxs.Props.C33_selects",
    "Pvxs.Props.C33_asksAll",
    "Pvxs.Props.C33_lenient",
    "Pvxs.Props.C33_strict"
   ],
   "note": "proved for the grammar the parser implements (Spec/ReqParse): exactly these texts are accepted, every other text throws, and the request built is the one the text says, down to the set of fields selected of a type. C33_lenient/C33_strict: where this grammar differs from the documented one."
  },
  {
   "property": "C34",
   "status": "partial",
   "theorems": [
    "Pvxs.Props.C34_once",
    "Pvxs.Props.C34_result",
    "Pvxs.Props.C34_outcome",
    "Pvxs.Props.C34_cancelled",
    "Pvxs.Props.C34_no_null",
    "Pvxs.Props.C34_cancel_in_builder"
   ],
   "note": "At most once, and once after three answers, for every history; the outcome is explained by the event which caused it; after cancel()/drop nothing is sent or called. False of the code when cancel() is called inside the put builder: the put is still sent (C34_cancel_in_builder)."
  },
  {
   "property": "C35",
   "status": "partial",
   "theorems": [
    "Pvxs.Props.C35_answered_partial",
    "Pvxs.Props.C35_disconnect",
    "Pvxs.Props.C35_error_lost",
    "Pvxs.Props.C35_get_lost",
    "Pvxs.Props.C35_ignored",
    "Pvxs.Props.C35_twice"
   ],
   "note": "Holds while the connection lasts and the server reports no error; false otherwise: error replies and reExecGet at a disconnect are never reported, a callback can be called twice (witness runs)."
  },
  {
   "property": "C36",
   "status": "partial",
   "theorems": [
    "Pvxs.Props.CMon.C36_told",
    "Pvxs.Props.CMon.C36_count",
    "Pvxs.Props.CMon.C36_once_partial",
    "Pvxs.Props.CMon.C36_late",
    "Pvxs.Props.CMon.C36_more"
   ],
   "note": "While an event waits the callback was called since the queue was last found empty, or is called when the worker continues; called at most once more than the queue was found empty. Not called twice before the queue is emptied, if pop() is not called while the worker is about to call the callback; C36_late shows that otherwise it is."
  },
  {
   "property": "C37",
   "status": "partial",
   "theorems": [
    "Pvxs.Props.CMon.C37_order",
    "Pvxs.Props.CMon.C37_pipeline",
    "Pvxs.Props.CMon.C37_latest_partial",
    "Pvxs.Props.CMon.C37_stale",
    "Pvxs.Props.CMon.C37_bound_partial",
    "Pvxs.Props.CMon.C37_bound_data",
    "Pvxs.Props.CMon.C37_exceeds",
    "Pvxs.Props.CMon.C37_finished_last",
    "Pvxs.Props.CMon.C37_batch"
   ],
   "note": "Order, merging and Finished last for all histories. The bound is queueSize plus one for each connection event waiting (C37_exceeds: queueSize itself is exceeded); latest content unless both connection events are masked (C37_stale)."
  },
  {
   "property": "C38",
   "status": "partial",
   "theorems": [
    "Pvxs.Props.CMon.C38_popped",
    "Pvxs.Props.CMon.C38_window_partial",
    "Pvxs.Props.CMon.C38_overack_reconnect",
    "Pvxs.Props.CMon.C38_overack_event"
   ],
   "note": "Never more acknowledged than popped. Window plus queue within queueSize on one connection with connection events masked; false after a reconnect and when connection events are popped (witnesses)."
  },
  {
   "property": "C39",
   "status": "proved",
   "theorems": [
    "Pvxs.Props.Id.C39_server",
    "Pvxs.Props.Id.C39_server_gives",
    "Pvxs.Props.Id.C39_request",
    "Pvxs.Props.Id.C39_request_gives",
    "Pvxs.Props.Id.C39_channel",
    "Pvxs.Props.Id.C39_channel_gives",
    "Pvxs.Props.Id.C39_channel_hang"
   ],
   "note": "For any history of allocations and releases the numbers in use are distinct 32 bit numbers; an allocation takes a free number and disturbs no other, also after the counter wraps. C39_channel_hang: client channel numbers are never released, so that channel number 2^32+1 of a context is searched for in an endless loop."
  },
  {
   "property": "C40",
   "status": "partial",
   "theorems": [
    "Pvxs.Props.Src.C40_order",
    "Pvxs.Props.Src.C40_first_partial",
    "Pvxs.Props.Src.C40_replies_partial",
    "Pvxs.Props.Src.C40_bytes",
    "Pvxs.Props.Src.C40_throw_accept",
    "Pvxs.Props.Src.C40_throw_abort",
    "Pvxs.Props.Src.C40_throw_null",
    "Pvxs.Props.Src.C40_empty_name"
   ],
   "note": "Sources are asked in (order, name) order, the first which does anything decides, each name gets one reply, open channels get fresh numbers; proved for sources which throw only before acting (otherwise false: C40_throw_*) and for non-empty names (false after an empty one: C40_empty_name)."
  },
  {
   "property": "C41",
   "status": "partial",
   "theorems": [
    "Pvxs.Props.Src.C41_udp_sound",
    "Pvxs.Props.Src.C41_udp_complete_partial",
    "Pvxs.Props.Src.C41_tcp_partial",
    "Pvxs.Props.Src.C41_ignore_v6",
    "Pvxs.Props.Src.C41_tcp_protocols"
   ],
   "note": "UDP: replies are sound for all packets; complete unless IPv6 addresses are on the ignore list (then all IPv6 senders are ignored: C41_ignore_v6). TCP: exact when no protocol follows tcp in the list (otherwise false: C41_tcp_protocols)."
  },
  {
   "property": "C42",
   "status": "partial",
   "theorems": [
    "Pvxs.Props.Sea.C42_scheduled",
    "Pvxs.Props.Sea.C42_alive",
    "Pvxs.Props.Sea.C42_tick",
    "Pvxs.Props.Sea.C42_initial",
    "Pvxs.Props.Sea.C42_again",
    "Pvxs.Props.Sea.C42_discover",
    "Pvxs.Props.Sea.C42_long",
    "Pvxs.Props.Sea.C42_long_two",
    "Pvxs.Props.Sea.C42_twice",
    "Pvxs.Props.Sea.C42_forced_searched"
   ],
   "note": "For every history of events (names up to 32738 bytes): an unresolved channel is scheduled, the packets of each tick are searches for exactly the unresolved channels of the bucket, each announces the number of its names and is at most 1400 bytes unless it has one name only, and any thirty ticks send the name of a channel which stays unresolved. 'Exactly one bucket' is false (C42_twice, proved negation); names which do not fit abort the process (C42_long, C42_long_two). The same packets, as unicast and without a port, go to name servers (C42_tick, C42_initial); to which destinations is C104. Errors of sendto() are not modelled."
  },
  {
   "property": "C43",
   "status": "proved",
   "theorems": [
    "Pvxs.Props.Bcn.C43_story",
    "Pvxs.Props.Bcn.C43_same",
    "Pvxs.Props.Bcn.C43_change",
    "Pvxs.Props.Bcn.C43_new",
    "Pvxs.Props.Bcn.C43_full",
    "Pvxs.Props.Bcn.C43_clean",
    "Pvxs.Props.Bcn.C43_clean_off",
    "Pvxs.Props.Bcn.C43_heard",
    "Pvxs.Props.Bcn.C43_heard_story",
    "Pvxs.Props.Bcn.C43_late"
   ],
   "note": "For every history of beacons, sweeps and listeners. Who starts to listen late is not told which servers are already online, so that the first event told may be offline (C43_late). Beacons, sweeps and the set of listeners are taken to be changed in turns; in the code the set of listeners is changed without the lock."
  },
  {
   "property": "C44",
   "status": "partial",
   "theorems": [
    "Pvxs.Props.Cch.C44_referenced",
    "Pvxs.Props.Cch.C44_share",
    "Pvxs.Props.Cch.C44_distinct",
    "Pvxs.Props.Cch.C44_drops",
    "Pvxs.Props.Cch.C44_fresh",
    "Pvxs.Props.Cch.C44_swept",
    "Pvxs.Props.Cch.C44_closed",
    "Pvxs.Props.Cch.C44_first_pass",
    "Pvxs.Props.Cch.C44_used_dropped"
   ],
   "note": "For every history of operations and clean-up. That a channel which was used since the previous pass is kept is false (C44_first_pass, C44_used_dropped): the mark is tested right after it is set."
  },
  {
   "property": "C45",
   "status": "proved",
   "theorems": [
    "Pvxs.Props.Cfg.C45_merge",
    "Pvxs.Props.Cfg.C45_merge_unique",
    "Pvxs.Props.Cfg.C45_client",
    "Pvxs.Props.Cfg.C45_server"
   ],
   "note": "The merge for every list of endpoints, and the lists in effect after expand() of a client and of a server. Addresses are compared as evutil_sockaddr_cmp does (family, IP, port); the operating system's interface list is a parameter."
  },
  {
   "property": "C46",
   "status": "partial",
   "theorems": [
    "Pvxs.Props.Cfg.C46_timeout",
    "Pvxs.Props.Cfg.C46_server_ports_partial",
    "Pvxs.Props.Cfg.C46_client_ports_partial",
    "Pvxs.Props.Cfg.C46_wrap"
   ],
   "note": "The timeout part holds in full. A port number below 65536 is used as given and text which is no number is ignored; a greater or negative number is neither: it is used modulo 65536 (C46_wrap)."
  },
  {
   "property": "C47",
   "status": "proved",
   "theorems": [
    "Pvxs.Props.Udp.C47_search",
    "Pvxs.Props.Udp.C47_beacon",
    "Pvxs.Props.Udp.C47_forward",
    "Pvxs.Props.Udp.C47_passed_on",
    "Pvxs.Props.Udp.receive_one",
    "Pvxs.Props.Udp.C47_abort_iff",
    "Pvxs.Props.Udp.C47_aborts",
    "Pvxs.Props.Udp.C47_sticky",
    "Pvxs.Props.Udp.C47_delivered",
    "Pvxs.Props.Udp.C47_once"
   ],
   "note": "Exact: a search or beacon is delivered if and only if the bytes of the packet form one according to the grammar in Spec/Packet and Spec/Udp. Found: an assert() fails, ending the process, for a packet from this host which is both tagged and unicast (C47_abort_iff says exactly when); once a search allowed for tcp, names in later ones which do not are delivered as well (C47_sticky)."
  },
  {
   "property": "C48",
   "status": "proved",
   "theorems": [
    "Pvxs.Props.Ffo.C48_order",
    "Pvxs.Props.Ffo.C48_bound",
    "Pvxs.Props.Ffo.C48_readers",
    "Pvxs.Props.Ffo.C48_writers",
    "Pvxs.Props.Ffo.C48_no_lost_wakeup",
    "Pvxs.Props.Ffo.C48_each"
   ],
   "note": "For any number of threads and every interleaving. epicsMutex gives atomic critical sections and epicsEvent is a binary flag: both are assumed."
  },
  {
   "property": "C49",
   "status": "partial",
   "theorems": [
    "Pvxs.Props.Arr.C49_frozen",
    "Pvxs.Props.Arr.C49_freeze",
    "Pvxs.Props.Arr.C49_thaw",
    "Pvxs.Props.Arr.C49_at_partial",
    "Pvxs.Props.Arr.C49_at_end",
    "Pvxs.Props.Arr.C49_resize"
   ],
   "note": "For every history of references made by one thread. at(size()) is not refused and reads beyond the array (C49_at_end); every other index beyond the end is refused (C49_at_partial). Concurrent use of one reference count from several threads is not modelled."
  },
  {
   "property": "C50",
   "status": "proved",
   "theorems": [
    "Pvxs.Props.Txt.C50_printable",
    "Pvxs.Props.Txt.C50_roundtrip",
    "Pvxs.Props.Txt.C50_injective",
    "Pvxs.Props.Txt.C50_null",
    "Pvxs.Props.Txt.C50_quoted"
   ],
   "note": "For all byte strings. A null pointer renders as <NULL>, as the text \"<NULL>\" itself does; this is outside the statement and recorded by C50_null."
  },
  {
   "property": "C51",
   "status": "partial",
   "theorems": [
    "Pvxs.Props.Lg.C51_level_partial",
    "Pvxs.Props.Lg.C51_same_name",
    "Pvxs.Props.Lg.C51_depends",
    "Pvxs.Props.Lg.C51_ignored",
    "Pvxs.Props.Lg.C51_env"
   ],
   "note": "The level is that of the last matching call, whenever the logger was first used, if no pattern matching the name is set, then another, then the first again, and the configuration is not cleared. Loggers of one name always agree. PVXS_LOG is read as documented. The full claim is false: C51_depends, C51_ignored give histories where the level depends on the time of first use, and where the last call has no effect. Glob matching is a parameter."
  },
  {
   "property": "C52",
   "status": "partial",
   "theorems": [
    "Pvxs.Props.Evl.C52_order_partial",
    "Pvxs.Props.Evl.C52_call_partial",
    "Pvxs.Props.Evl.C52_stop_partial",
    "Pvxs.Props.Evl.C52_quiet_partial",
    "Pvxs.Props.Evl.C52_progress_partial",
    "Pvxs.Props.Evl.C52_drains_partial",
    "Pvxs.Props.Evl.C52_lost"
   ],
   "note": "Order, at most once, call() after its function with its exception, nothing accepted after stop, no lost wakeup and progress are proved for all interleavings. That everything accepted is run fails for a dispatch() or call() which overlaps the end of the loop (C52_lost); C52_drains_partial is the part which holds."
  },
  {
   "property": "C53",
   "status": "partial",
   "theorems": [
    "Pvxs.Props.Lif.C53_turns_partial",
    "Pvxs.Props.Lif.C53_start_partial",
    "Pvxs.Props.Lif.C53_stop_partial",
    "Pvxs.Props.Lif.C53_idle_partial",
    "Pvxs.Props.Lif.C53_closed_partial",
    "Pvxs.Props.Lif.C53_beacon_partial",
    "Pvxs.Props.Lif.C53_accept_partial",
    "Pvxs.Props.Lif.C53_search_partial",
    "Pvxs.Props.Lif.C53_started_partial",
    "Pvxs.Props.Lif.C53_stopped_partial",
    "Pvxs.Props.Lif.C53_serves_partial",
    "Pvxs.Props.Lif.C53_returns_partial",
    "Pvxs.Props.Lif.C53_stop_lost",
    "Pvxs.Props.Lif.C53_stop_early"
   ],
   "note": "Turns, effects and returns are proved for all interleavings and any number of listeners. That no connection remains after stop() fails for a stop() which overlaps another start() or stop() (C53_stop_lost, C53_stop_early)."
  },
  {
   "property": "C54",
   "status": "partial",
   "theorems": [
    "Pvxs.Props.C54_still_usable",
    "Pvxs.Props.C54_not_released",
    "Pvxs.Props.C24_channel_partial"
   ],
   "note": "false of the code: the id stays usable and is never released; what holds is that the requests of the channel are over"
  },
  {
   "property": "C55",
   "status": "partial",
   "theorems": [
    "Pvxs.Props.Txt.C55_diff",
    "Pvxs.Props.Txt.C55_split_partial",
    "Pvxs.Props.Txt.C55_hang"
   ],
   "note": "The line difference is proved in full. Splitting into lines is proved for text without a lone carriage return; C55_hang proves that the loop does not end for text with one."
  },
  {
   "property": "C56",
   "status": "partial",
   "theorems": [
    "Pvxs.Props.C56_segmented_ensure",
    "Pvxs.Props.C56_segmented_consume",
    "Pvxs.Props.C56_skip_across_slices_wrong",
    "Pvxs.Props.C56_skip_partial"
   ],
   "note": "Buffer::skip across a slice boundary skips too much (negation proved)."
  },
  {
   "property": "C57",
   "status": "partial",
   "theorems": [
    "Pvxs.Props.Same.C57_partial",
    "Pvxs.Props.Same.C57_symmetric_partial",
    "Pvxs.Props.C57_union_choices"
   ],
   "note": "for types a program defines: true for the same structure; without Unions, false otherwise, symmetric and inside the tables; with Unions the code is wrong both ways (C57_union_choices)"
  },
  {
   "property": "C58",
   "status": "proved",
   "theorems": [
    "Pvxs.Props.Scl.C58_assign_signed",
    "Pvxs.Props.Scl.C58_assign_unsigned",
    "Pvxs.Props.Scl.C58_read_signed",
    "Pvxs.Props.Scl.C58_read_unsigned",
    "Pvxs.Props.Scl.C58_bool",
    "Pvxs.Props.Scl.C58_text_unsigned",
    "Pvxs.Props.Scl.C58_text_signed",
    "Pvxs.Props.Scl.C58_assign_text",
    "Pvxs.Props.Scl.C58_print",
    "Pvxs.Props.Scl.C58_text_roundtrip",
    "Pvxs.Props.Scl.C58_text_roundtrip_unsigned",
    "Pvxs.Props.Scl.C58_bool_text",
    "Pvxs.Props.Scl.C58_copy"
   ],
   "note": "Integer fields of all widths, read and assigned through signed, unsigned, boolean and string types. copyScalar (the conversion used by assignment between Values, C17) agrees with copyIn. Conversions to and from floating point are not part of this property."
  },
  {
   "property": "C59",
   "status": "partial",
   "theorems": [
    "Pvxs.Props.C59_onStart_partial",
    "Pvxs.Props.C59_cancel",
    "Pvxs.Props.C59_finish"
   ],
   "note": "holds unless the client cancels or the subscription is finished"
  },
  {
   "property": "C60",
   "status": "partial",
   "theorems": [
    "Pvxs.Props.C60_reExec",
    "Pvxs.Props.C60_auto_partial",
    "Pvxs.Props.C60_twice"
   ],
   "note": "Proved for reExec in every history and for automatic execution while the connection lasts; false of the code when the connection is lost after an automatically executed put was sent (C60_twice)."
  },
  {
   "property": "C61",
   "status": "proved",
   "theorems": [
    "Pvxs.Props.CMon.C61_no_stall"
   ],
   "note": "For all histories, queue sizes and thresholds."
  },
  {
   "property": "C62",
   "status": "partial",
   "theorems": [
    "Pvxs.Props.CMon.C62_told_partial",
    "Pvxs.Props.CMon.C62_over",
    "Pvxs.Props.CMon.C62_silent"
   ],
   "note": "Except when onInit() throws (C62_silent: ends without event) or cancels, or the server ends the subscription with its INIT reply."
  },
  {
   "property": "C63",
   "status": "partial",
   "theorems": [
    "Pvxs.Props.CMon.C63_pointers_partial",
    "Pvxs.Props.CMon.C63_crash",
    "Pvxs.Props.CMon.C63_freed"
   ],
   "note": "If the server sends updates only after START and onInit() does not cancel; witnesses that both are needed."
  },
  {
   "property": "C64",
   "status": "partial",
   "theorems": [
    "Pvxs.Props.Cfg.C64_partial",
    "Pvxs.Props.Cfg.C64_ttl_zero",
    "Pvxs.Props.Cfg.C64_host_v6",
    "Pvxs.Props.Cfg.C64_host"
   ],
   "note": "Holds except for a multicast time to live of 0, which is printed as none and read back as -1 (C64_ttl_zero). A host name which has only IPv6 addresses is taken for 0.0.0.0 (C64_host_v6). inet_pton, inet_ntop and name resolution are parameters; interface names which look like an IPv4 address or contain a comma are excluded."
  },
  {
   "property": "C65",
   "status": "partial",
   "theorems": [
    "Pvxs.Props.Cfg.C65_server_partial",
    "Pvxs.Props.Cfg.C65_client_partial",
    "Pvxs.Props.Cfg.C65_order",
    "Pvxs.Props.ConfigTime.C65_server_timeout_partial",
    "Pvxs.Props.ConfigTime.C65_client_timeout_partial",
    "Pvxs.Props.ConfigTime.C65_timeout_text",
    "Pvxs.Props.ConfigTime.C65_timeout_lossy"
   ],
   "note": "Ports, flags and the sets of addresses are restored, for addresses in the form the library prints; a default port is added where none was given. The order of the addresses is not restored (C65_order). A timeout in use is restored within one part in 100000, and is then written as the same text; a number of at most six digits given by the user is written as the same number; a timeout of more digits is not restored exactly (C65_timeout_lossy). Scaling by 4/3 and the text are modelled as IEEE 754 rounding, C83 and C90."
  },
  {
   "property": "C66",
   "status": "proved",
   "theorems": [
    "Pvxs.Props.Bcn.C66_limit",
    "Pvxs.Props.Bcn.C66_none",
    "Pvxs.Props.Bcn.C66_accepts",
    "Pvxs.Props.Bcn.C66_first",
    "Pvxs.Props.Bcn.C66_fast",
    "Pvxs.Props.Bcn.C66_clock"
   ],
   "note": "Times are whole nanoseconds. C66_clock: a clock which is set back blocks hurryUp(). That thirty ticks search for all channels is C42_again."
  },
  {
   "property": "C67",
   "status": "partial",
   "theorems": [
    "Pvxs.Props.Grc.C67_partial",
    "Pvxs.Props.Grc.C67_incomplete_partial",
    "Pvxs.Props.Grc.C67_dangling",
    "Pvxs.Props.Grc.C67_blank"
   ],
   "note": "Order of fields, triggers and references of a group built from its definition. Missing: a field whose record does not exist keeps triggers out of range (C67_dangling); names in +trigger lists are not trimmed (C67_blank)."
  },
  {
   "property": "C68",
   "status": "partial",
   "theorems": [
    "Pvxs.Props.Grp.C68_only_partial",
    "Pvxs.Props.Grp.C68_complete_partial",
    "Pvxs.Props.Grp.C68_once_partial",
    "Pvxs.Props.Grp.C68_order_partial",
    "Pvxs.Props.Grp.C68_permitted_partial",
    "Pvxs.Props.Grp.C68_atomic_partial",
    "Pvxs.Props.Grp.C68_locked_partial",
    "Pvxs.Props.Grp.C68_refused_partial",
    "Pvxs.Props.Grp.C68_nothing_partial",
    "Pvxs.Props.Grp.C68_wrong_client",
    "Pvxs.Props.Grp.C68_wrong_refusal",
    "Pvxs.Props.Grp.C68_half",
    "Pvxs.Props.Grp.C68_unasked"
   ],
   "note": "What a group put writes, in which order and under which locks. Missing: a non-atomic put checks the wrong client's permission (C68_wrong_client, C68_wrong_refusal), a denied atomic put leaves earlier fields written (C68_half), proc fields need no permission (C68_unasked)."
  },
  {
   "property": "C69",
   "status": "partial",
   "theorems": [
    "Pvxs.Props.Grm.C69_silent_partial",
    "Pvxs.Props.Grm.C69_first_partial",
    "Pvxs.Props.Grm.C69_update_partial",
    "Pvxs.Props.Grm.C69_prompt_partial",
    "Pvxs.Props.Grm.C69_complete_partial",
    "Pvxs.Props.Grm.C69_event_partial",
    "Pvxs.Props.Grm.C69_unread",
    "Pvxs.Props.Grm.C69_race"
   ],
   "note": "All sequences of events, when a start does not run at the same time as an event. Missing: with a start on another thread a change can be lost or sent twice (C69_race); if a record cannot be read at first, the first update is incomplete (C69_unread)."
  },
  {
   "property": "C70",
   "status": "partial",
   "theorems": [
    "Pvxs.Props.Fnm.C70_partial",
    "Pvxs.Props.Fnm.C70_unique_partial",
    "Pvxs.Props.Fnm.C70_all_partial",
    "Pvxs.Props.Fnm.C70_root_partial",
    "Pvxs.Props.Fnm.C70_empty_part_partial",
    "Pvxs.Props.Fnm.C70_lenient"
   ],
   "note": "Every well formed name is read as written and printed back. Missing: names which are not well formed are not always refused (C70_lenient)."
  },
  {
   "property": "C71",
   "status": "partial",
   "theorems": [
    "Pvxs.Props.C71_partial",
    "Pvxs.Props.C71_connects_partial",
    "Pvxs.Props.C71_same_id",
    "Pvxs.Props.C71_same_id_abort",
    "Pvxs.Props.C71_refused_at_once",
    "Pvxs.Props.C71_refused_later"
   ],
   "note": "Full statement proved for all histories in which servers give no ID twice on a connection and connect() does not fail at once; both exceptions are counterexamples of the code (proved)."
  },
  {
   "property": "C72",
   "status": "partial",
   "theorems": [
    "Pvxs.Props.C72_partial",
    "Pvxs.Props.C72_two",
    "Pvxs.Props.C72_two_refused",
    "Pvxs.Props.C72_close"
   ],
   "note": "Proved for all histories without server(), refused channels and name servers; the property is false of the code with them: the destructor of a lost connection removes the entry of its successor (proved)."
  },
  {
   "property": "C73",
   "status": "partial",
   "theorems": [
    "Pvxs.Props.C73_partial",
    "Pvxs.Props.C73_stays_closed"
   ],
   "note": "Proved for all histories in which the client does not itself close a name server's connection; in that case it is never connected to again (proved)."
  },
  {
   "property": "C74",
   "status": "partial",
   "theorems": [
    "Pvxs.Props.Handshake.C74_agree",
    "Pvxs.Props.Handshake.C74_select",
    "Pvxs.Props.Handshake.C74_truncated",
    "Pvxs.Props.Handshake.C74_history",
    "Pvxs.Props.Handshake.C74_partial",
    "Pvxs.Props.Handshake.C74_always",
    "Pvxs.Props.Handshake.C74_user",
    "Pvxs.Props.Handshake.C74_sticky"
   ],
   "note": "Proved for one handshake and for all sequences in which no handshake without an account follows one with; in that case the server keeps the old account (proved)."
  },
  {
   "property": "C75",
   "status": "partial",
   "theorems": [
    "Pvxs.Props.IocCred.C75_roles",
    "Pvxs.Props.IocCred.C75_partial",
    "Pvxs.Props.IocCred.C75_own_name",
    "Pvxs.Props.IocCred.C75_role_claim",
    "Pvxs.Props.IocCred.C75_write",
    "Pvxs.Props.IocCred.C75_host_partial",
    "Pvxs.Props.IocCred.C75_host_v6"
   ],
   "note": "The names and the decision proved for all accounts known to the operating system; the host for IPv4. For an unknown account its own name is also a role, and IPv6 hosts are cut at the first colon (both proved)."
  },
  {
   "property": "C76",
   "status": "partial",
   "theorems": [
    "Pvxs.Props.RecPut.C76_permitted",
    "Pvxs.Props.RecPut.C76_one_reply",
    "Pvxs.Props.RecPut.C76_refused",
    "Pvxs.Props.RecPut.C76_partial",
    "Pvxs.Props.RecPut.C76_waits",
    "Pvxs.Props.RecPut.C76_replied_partial",
    "Pvxs.Props.RecPut.C76_unmarked",
    "Pvxs.Props.RecPut.C76_lost",
    "Pvxs.Props.RecPut.C76_escapes",
    "Pvxs.Props.RecPut.C76_not_waited",
    "Pvxs.Props.RecPut.C76_link",
    "Pvxs.Props.RecPut.C76_identity"
   ],
   "note": "Safety (only what is permitted is written; at most one reply) for all histories; exactly one reply and one write for all sequences of puts which do not overlap. The code breaks the rest: a put without value resets the record, overlapping puts lose a reply, a failed conversion with block=true leaves a C callback by exception, process=true disables block=true, links are not processed, the identity is that of the first put (all proved)."
  },
  {
   "property": "C77",
   "status": "partial",
   "theorems": [
    "Pvxs.Props.RecGet.C77_status",
    "Pvxs.Props.RecGet.C77_time",
    "Pvxs.Props.RecGet.C77_get",
    "Pvxs.Props.RecGet.C77_message",
    "Pvxs.Props.RecGet.C77_partial",
    "Pvxs.Props.RecGet.C77_first",
    "Pvxs.Props.RecGet.C77_dbe",
    "Pvxs.Props.RecGet.C77_dbe_text",
    "Pvxs.Props.RecGet.C77_finds",
    "Pvxs.Props.RecGet.C77_archive",
    "Pvxs.Props.RecGet.C77_tag"
   ],
   "note": "Proved for all records and sequences of events; a subscription to archive events is only sent empty updates, and subscriptions ignore the time tag which a get applies (both proved)."
  },
  {
   "property": "C78",
   "status": "partial",
   "theorems": [
    "Pvxs.Props.Wait.C78_result",
    "Pvxs.Props.Wait.C78_after",
    "Pvxs.Props.Wait.C78_partial",
    "Pvxs.Props.Wait.C78_second",
    "Pvxs.Props.Wait.C78_timeout",
    "Pvxs.Props.Wait.C78_interrupted"
   ],
   "note": "Proved: what wait() returns is the first result or interruption, for all interleavings; with one thread at a time waiting, it is let go once there is a result. Violated by the code, negation proved: with two threads waiting the result wakes only one of them (C78_second); a timeout may be reported although the result is there (C78_timeout); an interruption is remembered and the result which follows it is never returned (C78_interrupted)."
  },
  {
   "property": "C79",
   "status": "partial",
   "theorems": [
    "Pvxs.Props.PutBuild.C79_partial",
    "Pvxs.Props.PutBuild.C79_refused",
    "Pvxs.Props.PutBuild.C79_order",
    "Pvxs.Props.PutBuild.C79_twice",
    "Pvxs.Props.PutBuild.C79_same",
    "Pvxs.Props.PutBuild.fieldOf_index",
    "Pvxs.Props.PutBuild.C79_lost",
    "Pvxs.Props.PutBuild.C79_struct"
   ],
   "note": "Proved for all prototypes and all values which are not structures, names without < [ -. A structure given for a field which can hold any value is lost without error (C79_lost), and is refused by a field of the same type (C79_struct); both proved."
  },
  {
   "property": "C80",
   "status": "partial",
   "theorems": [
    "Pvxs.Props.TypeDef.C80_copy",
    "Pvxs.Props.TypeDef.C80_append_partial",
    "Pvxs.Props.TypeDef.C80_odd_name",
    "Pvxs.Props.TypeDef.C80_duplicate",
    "Pvxs.Props.TypeDef.C80_as",
    "Pvxs.Props.TypeDef.C80_any",
    "Pvxs.Props.TypeDef.C80_failed",
    "Pvxs.Props.TypeDef.C80_as_code",
    "Pvxs.Props.TypeDef.C80_as_any"
   ],
   "note": "Copying proved for every type defined by a program (valid, distinct names), every field; merging proved for distinct names. False of the code (proved): a value from a peer whose type has a member such as a-b has no definition, the constructor throws (C80_odd_name); two members of one name, or a name with a dot given to as(), pass the constructors but abort the process (C80_duplicate, C80_as); a structure with members may become an Any which keeps them (C80_any); after a refused += the definition can not be extended any more (C80_failed)."
  },
  {
   "property": "C81",
   "status": "partial",
   "theorems": [
    "Pvxs.Props.ArrayConv.C81_integers",
    "Pvxs.Props.ArrayConv.C81_bool",
    "Pvxs.Props.ArrayConv.C81_real_bool",
    "Pvxs.Props.ArrayConv.C81_int_to_real",
    "Pvxs.Props.ArrayConv.C81_real_to_int",
    "Pvxs.Props.ArrayConv.C81_real_ub",
    "Pvxs.Props.ArrayConv.C81_widen",
    "Pvxs.Props.ArrayConv.C81_narrow",
    "Pvxs.Props.ArrayConv.C81_print_partial",
    "Pvxs.Props.ArrayConv.C81_octets",
    "Pvxs.Props.ArrayConv.C81_octets_all",
    "Pvxs.Props.ArrayConv.C81_print_bool",
    "Pvxs.Props.ArrayConv.C81_parse",
    "Pvxs.Props.ArrayConv.C81_parse_bool",
    "Pvxs.Props.ArrayConv.C81_bool_text",
    "Pvxs.Props.ArrayConv.C81_try",
    "Pvxs.Props.ArrayConv.C81_union",
    "Pvxs.Props.ArrayConv.C81_text",
    "Pvxs.Props.ArrayConv.C81_refused",
    "Pvxs.Props.ArrayConv.C81_empty",
    "Pvxs.Props.ArrayConv.C81_thaw",
    "Pvxs.Props.ArrayConv.C81_thaw_partial",
    "Pvxs.Props.ArrayConv.C81_value"
   ],
   "note": "Proved for all pairs of integer, boolean and real types (nearest real, exact when it fits; truncation), for text of integers and booleans both ways, and inside a Value. The code violates it: an element of uint8_t[] above 127 is printed as another number (200 as 4294967240, C81_octets); other text than true/false for bool[] throws std::runtime_error instead of NoConvert, so tryFrom throws and an Union refuses an array another choice would take (C81_bool_text, C81_try, C81_union); a real out of range is undefined behaviour (C81_real_ub); an untyped array of Values with two references can not be thawed (C81_thaw). Text of reals is a parameter here, given by C83 and C90 (C90_array)."
  },
  {
   "property": "C82",
   "status": "partial",
   "theorems": [
    "Pvxs.Props.ServerPV.C82_static",
    "Pvxs.Props.ServerPV.C82_race",
    "Pvxs.Props.ServerPV.C82_race_partial",
    "Pvxs.Props.ServerPV.C82_channels",
    "Pvxs.Props.ServerPV.C82_info",
    "Pvxs.Props.ServerPV.C82_other",
    "Pvxs.Props.ServerPV.C82_no_op",
    "Pvxs.Props.ServerPV.C82_once",
    "Pvxs.Props.ServerPV.C82_silent",
    "Pvxs.Props.ServerPV.C82_help",
    "Pvxs.Props.ServerPV.C82_hidden"
   ],
   "note": "Proved: a StaticSource has, claims, lists and closes exactly what was added and not removed, for every history; op=channels lists exactly the union of what the sources list, sorted, for every type of the arguments; info; an error for any other text; at most one reply reaches the client. The code violates the rest: a call without op (or with op which is no scalar) throws in the handler after its ExecOp has been moved away, so that no reply is ever sent (C82_silent; any throwing handler has this effect); help together with op gets the help only (C82_help); onList() replaces its list with only the lock for readers (C82_race); a PV added as \"server\" hides the built in one (C82_hidden). Not modelled: the normative types around the replies."
  },
  {
   "property": "C83",
   "status": "partial",
   "theorems": [
    "Pvxs.Props.RealScalar.C83_to_double",
    "Pvxs.Props.RealScalar.C83_to_float_partial",
    "Pvxs.Props.RealScalar.C83_double_rounding",
    "Pvxs.Props.RealScalar.C83_real",
    "Pvxs.Props.RealScalar.C83_read_int",
    "Pvxs.Props.RealScalar.C83_assign_int",
    "Pvxs.Props.RealScalar.C83_real_ub",
    "Pvxs.Props.RealScalar.C83_bool",
    "Pvxs.Props.RealScalar.C83_copy",
    "Pvxs.Props.RealScalar.C83_parse",
    "Pvxs.Props.RealScalar.C83_text",
    "Pvxs.Props.RealScalar.C83_text_special",
    "Pvxs.Props.RealScalar.C83_text_exact",
    "Pvxs.Props.RealScalar.C83_text_lossy"
   ],
   "note": "Proved for every content and every double: nearest double, dropped fraction, low bits, six digits of text. Violated: a large integer assigned to a Float32 field is rounded twice (C83_double_rounding); a double out of range of 64 bits read as an integer is undefined behaviour (C83_real_ub). Text of seven digits cannot be read back (C83_text_lossy). Parsing text as a double is a parameter here, given by C90."
  },
  {
   "property": "C84",
   "status": "partial",
   "theorems": [
    "Pvxs.Props.ClientInfo.C84_once",
    "Pvxs.Props.ClientInfo.C84_called",
    "Pvxs.Props.ClientInfo.C84_type",
    "Pvxs.Props.ClientInfo.C84_error",
    "Pvxs.Props.ClientInfo.C84_asks",
    "Pvxs.Props.ClientInfo.C84_over",
    "Pvxs.Props.ClientInfo.C84_cancel_partial",
    "Pvxs.Props.ClientInfo.C84_cancel_releases",
    "Pvxs.Props.ClientInfo.C84_cancel_failed",
    "Pvxs.Props.ClientInfo.C84_deep"
   ],
   "note": "Proved for every history: called at most once, exactly on the answer to the present request, with the server's type (bytes from the server's encoder to the client's decoder) or error; asked once per connection; nothing after cancel or drop. Violated: a type nested deeper than 20 levels is never reported, the client reconnects for ever (C84_deep); cancel() returns true for an operation which failed at once (C84_cancel_failed)."
  },
  {
   "property": "C85",
   "status": "partial",
   "theorems": [
    "Pvxs.Props.ClientConnect.C85_told_partial",
    "Pvxs.Props.ClientConnect.C85_alternate_partial",
    "Pvxs.Props.ClientConnect.C85_poll_partial",
    "Pvxs.Props.ClientConnect.C85_gone_partial",
    "Pvxs.Props.ClientConnect.C85_bad_server",
    "Pvxs.Props.ClientConnect.C85_drop_other",
    "Pvxs.Props.ClientConnect.C85_drop_first",
    "Pvxs.Props.ClientConnect.C85_drop_new",
    "Pvxs.Props.ClientConnect.C85_throw_first",
    "Pvxs.Props.ClientConnect.C85_throw_down",
    "Pvxs.Props.ClientConnect.C85_throw_up",
    "Pvxs.Props.ClientConnect.C85_name"
   ],
   "note": "Proved for every history in which callbacks neither throw nor release a Connect and the channel can be made. The code violates the rest, each shown by a concrete history: a Connect with an invalid server (or closed Context) aborts the process when released; a callback which releases another Connect of the channel, or its own in its first call, leaves a dangling pointer which is then used; a callback which releases a Connect made just before aborts; a first callback which throws is never called again; a throwing onDisconnect loses the channel for good (or aborts if operations use it); Operation::name() dereferences null before the worker ran or after a failed set up."
  },
  {
   "property": "C86",
   "status": "partial",
   "theorems": [
    "Pvxs.Props.LinkPut.C86_sound",
    "Pvxs.Props.LinkPut.C86_last_partial",
    "Pvxs.Props.LinkPut.C86_delivered_partial",
    "Pvxs.Props.LinkPut.C86_process_partial",
    "Pvxs.Props.LinkPut.C86_complete_partial",
    "Pvxs.Props.LinkPut.C86_stuck",
    "Pvxs.Props.LinkPut.C86_early",
    "Pvxs.Props.LinkPut.C86_retry_empty",
    "Pvxs.Props.LinkPut.C86_retry_dropped",
    "Pvxs.Props.LinkPut.C86_process_lost",
    "Pvxs.Props.LinkPut.C86_forward_lost",
    "Pvxs.Props.LinkPut.C86_deadlock",
    "Pvxs.Props.LinkPut.C86_one_bad"
   ],
   "note": "Proved for all histories: no value is made up, reordered or sent twice. Proved for histories without loss of connection, refusals, conversion errors, or writes during a client callback: the last value is delivered, the record completed; the process option is right if no link is written while a PUT waits to be built. The code violates the rest, proved: a disconnect leaves a waiting record in progress for ever; a record is completed before its value is sent; retry sends an empty PUT, and a disconnect drops the values it should retry; a PUT which replaces one not yet built forgets PP and forward; writing a link while the client worker is about to call a callback deadlocks (the lock is held while the old operation is destroyed synchronously); one unconvertible value withholds those of other links."
  },
  {
   "property": "C87",
   "status": "partial",
   "theorems": [
    "Pvxs.Props.LinkScan.C87_wake",
    "Pvxs.Props.LinkScan.C87_each",
    "Pvxs.Props.LinkScan.C87_drain",
    "Pvxs.Props.LinkScan.C87_scan_partial",
    "Pvxs.Props.LinkScan.C87_attach",
    "Pvxs.Props.LinkScan.C87_order",
    "Pvxs.Props.LinkScan.C87_twice",
    "Pvxs.Props.LinkScan.C87_error"
   ],
   "note": "Proved for every event history in which attached links have distinct addresses: no lost wake-up, one scan per delivered item in order with the cache right after it, exactly the records of the attached links which want it, attach while connected. Not as documented: monorder is not respected between atomic and non-atomic links (C87_order); a record with two links is processed twice per update (C87_twice); an error item processes records although nothing changed (C87_error). Not modelled: a link removed while the scan is running, locking of records."
  },
  {
   "property": "C88",
   "status": "partial",
   "theorems": [
    "Pvxs.Props.LinkRead.C88_read_partial",
    "Pvxs.Props.LinkRead.C88_together",
    "Pvxs.Props.LinkRead.C88_plain_partial",
    "Pvxs.Props.LinkRead.C88_disconnected_partial",
    "Pvxs.Props.LinkRead.C88_ok_connected",
    "Pvxs.Props.LinkRead.C88_no_value",
    "Pvxs.Props.LinkRead.C88_missing",
    "Pvxs.Props.LinkRead.C88_stale_time",
    "Pvxs.Props.LinkRead.C88_no_time",
    "Pvxs.Props.LinkRead.C88_before_1990",
    "Pvxs.Props.LinkRead.C88_tag",
    "Pvxs.Props.LinkRead.C88_array_text",
    "Pvxs.Props.LinkRead.C88_no_alarm",
    "Pvxs.Props.LinkRead.C88_array_type",
    "Pvxs.Props.LinkRead.C88_elements"
   ],
   "note": "Proved for every history: a successful read of a readable value shows the most recent update, alarm and time are of the same update. Violated by the code (negations proved): a read of a disconnected link yields no value though documented; a field missing from the update gives success with nothing written; the time of a former type stays after a type change; without time stamp the record's time is 1990; times before 1990 wrap; the user tag is always 0; arrays of numbers cannot be read as strings; a failed conversion reports the earlier alarm; arrays are reported as DBF_LONG. Not modelled: Any and Union values. Limits, precision, units and alarm message: C102."
  },
  {
   "property": "C89",
   "status": "partial",
   "theorems": [
    "Pvxs.Props.LinkConf.C89_options_partial",
    "Pvxs.Props.LinkConf.C89_short",
    "Pvxs.Props.LinkConf.C89_last",
    "Pvxs.Props.LinkConf.C89_mss",
    "Pvxs.Props.LinkConf.C89_monorder"
   ],
   "note": "Proved for every map whose members have documented values within range. Violated by the code (negations proved): MSS is taken as MS where the documentation says MSI; monorder is cut to +-1024 and wraps modulo 2^32. Reals and arrays (the link is rejected) are not modelled."
  },
  {
   "property": "C90",
   "status": "partial",
   "theorems": [
    "Pvxs.Props.RealParse.C90_nearest_partial",
    "Pvxs.Props.RealParse.C90_exact",
    "Pvxs.Props.RealParse.C90_large",
    "Pvxs.Props.RealParse.C90_words",
    "Pvxs.Props.RealParse.C90_only",
    "Pvxs.Props.RealParse.C90_tiny",
    "Pvxs.Props.RealParse.C90_min",
    "Pvxs.Props.RealParse.C90_back",
    "Pvxs.Props.RealParse.C90_whole",
    "Pvxs.Props.RealParse.C90_special",
    "Pvxs.Props.RealParse.C90_field",
    "Pvxs.Props.RealParse.C90_array",
    "Pvxs.Props.RealParse.C90_array_float",
    "Pvxs.Props.RealParse.C90_array_text",
    "Pvxs.Props.RealParse.C90_array_text_float"
   ],
   "note": "Proved for every string: a number which is 0 or at least 2^-1022 is read as the nearest double (ties to even); one which is exactly a double is read as that double, however small; too large is refused; what is accepted is a number, inf or nan. Not true of the code: a number below 2^-1022 which is not exactly a double is refused although a nearest double exists (C90_tiny), so that the text written for the smallest normal double can not be read again (C90_min): std::stod reports ERANGE on underflow. Round trip: within one part in 100000 and stable (C90_back), whole numbers below a million exact (C90_whole), 0, inf, nan (C90_special). Trusted: glibc's strtod rounds correctly and sets ERANGE on inexact tiny results, with tininess detected before or after rounding (both are covered); the C locale."
  },
  {
   "property": "C91",
   "status": "partial",
   "theorems": [
    "Pvxs.Props.GroupGet.C91_atomic",
    "Pvxs.Props.GroupGet.C91_each_partial",
    "Pvxs.Props.GroupGet.C91_const_missing",
    "Pvxs.Props.GroupGet.C91_error",
    "Pvxs.Props.GroupGet.C91_one",
    "Pvxs.Props.GroupGet.C91_ends",
    "Pvxs.Props.GroupGet.C91_choice",
    "Pvxs.Props.GroupGet.C91_not_one"
   ],
   "note": "Proved for all schedules: an atomic get replies the state of all members, constants included, at one instant of the get; without atomic each member with a record is shown at one instant of its own; one answer; an error only if a member could not be read; the get ends after a bounded number of its own steps with nothing locked. The code violates the rest: without atomic, constant members are not part of the reply (C91_const_missing). C91_not_one shows that atomic is needed for one common instant. Values are numbers; conversions of record values are not modelled."
  },
  {
   "property": "C92",
   "status": "partial",
   "theorems": [
    "Pvxs.Props.Discover.C92_told_partial",
    "Pvxs.Props.Discover.C92_ended_partial",
    "Pvxs.Props.Discover.C92_race",
    "Pvxs.Props.Discover.C92_running",
    "Pvxs.Props.Discover.C92_terminated",
    "Pvxs.Props.Discover.C92_self_cancel",
    "Pvxs.Props.Discover.C92_deadlock",
    "Pvxs.Props.Discover.C92_cancel_other",
    "Pvxs.Props.Discover.C92_ping_known",
    "Pvxs.Props.Discover.C92_ping_late",
    "Pvxs.Props.Discover.C92_ping_second",
    "Pvxs.Props.Discover.C92_ping_new",
    "Pvxs.Props.Discover.C92_found"
   ],
   "note": "Proved for every interleaving in which the list of listeners is not changed while the other thread goes through it, and callbacks do not cancel. The code breaks the rest: the list is changed without the lock (C92_race), cancel does not wait for a callback on the UDP thread (C92_running), release during one ends the process (C92_terminated), a callback which cancels its own operation uses a freed node (C92_self_cancel) or waits for ever (C92_deadlock), and a ping does not report servers which are already tracked (C92_ping_late), nor is it sent if another listener is in place (C92_ping_second)."
  },
  {
   "property": "C93",
   "status": "partial",
   "theorems": [
    "Pvxs.Props.FlowCtl.C93_done",
    "Pvxs.Props.FlowCtl.C93_ends",
    "Pvxs.Props.FlowCtl.C93_order",
    "Pvxs.Props.FlowCtl.C93_suspends",
    "Pvxs.Props.FlowCtl.C93_resumes",
    "Pvxs.Props.FlowCtl.C93_fill",
    "Pvxs.Props.FlowCtl.C93_unbounded",
    "Pvxs.Props.FlowCtl.C93_suspended"
   ],
   "note": "Nothing is held back for ever: proved for every history and every order of the steps which follow. The bound is false of the code: whether too much waits is only looked at when the client sends something, so that nothing is held back for a client which only subscribes (C93_unbounded), and a subscription which is being sent goes on although reading was suspended (C93_suspended)."
  },
  {
   "property": "C94",
   "status": "partial",
   "theorems": [
    "Pvxs.Props.GJson.C94_recorded",
    "Pvxs.Props.GJson.C94_warned",
    "Pvxs.Props.GJson.C94_warned_first",
    "Pvxs.Props.GJson.C94_warned_again",
    "Pvxs.Props.GJson.C94_silent",
    "Pvxs.Props.GJson.C94_abort_array",
    "Pvxs.Props.GJson.C94_abort_object",
    "Pvxs.Props.GJson.C94_abort_order",
    "Pvxs.Props.GJson.C94_abort_null",
    "Pvxs.Props.GJson.C94_wrong_group",
    "Pvxs.Props.GJson.C94_rest_lost",
    "Pvxs.Props.GJson.C94_empty_field",
    "Pvxs.Props.GJson.C94_bad_file"
   ],
   "note": "Proved for all definitions which follow the schema, in any number of records and files: the recorded groups are exactly those written (C94_recorded), unknown keys are reported (C94_warned, C94_warned_first). The code violates the rest: no JSON text is ever rejected, since the callbacks return -1 for an exception and yajl stops at 0 only (C94_silent); an array, an object, a null or an order which is no number as the last value of a field ends the IOC by an assertion (C94_abort_*); fields of a group without a name go to the group before (C94_wrong_group); after an object which is too deep the rest is dropped silently (C94_rest_lost); a field without options is dropped silently (C94_empty_field); warnings are repeated for later records (C94_warned_again); one bad file stops the files after it (C94_bad_file)."
  },
  {
   "property": "C95",
   "status": "partial",
   "theorems": [
    "Pvxs.Props.GLoad.C95_files",
    "Pvxs.Props.GLoad.C95_groups",
    "Pvxs.Props.GLoad.C95_no_file",
    "Pvxs.Props.GLoad.C95_shell_empty",
    "Pvxs.Props.GLoad.C95_shell_lost",
    "Pvxs.Props.GLoad.C95_star"
   ],
   "note": "Proved for calls of dbLoadGroup(): the files read are those asked for, in order (C95_files, C95_groups, C95_no_file). The code violates it for the command of the IOC shell: it reads the files into an object which is destroyed at once, so that the list is empty after any command and no group of a file is made (C95_shell_empty, C95_shell_lost). \"*\" without the sign removes all files (C95_star)."
  },
  {
   "property": "C96",
   "status": "partial",
   "theorems": [
    "Pvxs.Props.RecVal.C96_get",
    "Pvxs.Props.RecVal.C96_put",
    "Pvxs.Props.RecVal.C96_same",
    "Pvxs.Props.RecVal.C96_text",
    "Pvxs.Props.RecVal.C96_cut",
    "Pvxs.Props.RecVal.C96_nul",
    "Pvxs.Props.RecVal.C96_index",
    "Pvxs.Props.RecVal.C96_wraps",
    "Pvxs.Props.RecVal.C96_choices",
    "Pvxs.Props.RecVal.C96_array",
    "Pvxs.Props.RecVal.C96_array_cut",
    "Pvxs.Props.RecVal.C96_long",
    "Pvxs.Props.RecVal.C96_full",
    "Pvxs.Props.RecVal.C96_description",
    "Pvxs.Props.RecVal.C96_extra",
    "Pvxs.Props.RecVal.C96_none"
   ],
   "note": "Proved for all fields and all values which they can hold, and what becomes of all strings, indices, arrays and long strings. The code breaks the rest, with a successful put: strings are cut at 39 bytes and at NUL, an index is taken modulo 65536, arrays and long strings are cut; an array of choices can neither be read nor written; a full char array and a description of 40 characters are read without their last character; an empty array of capacity one is read as zero (all proved). Not modelled: links, filters, values of other types than that of the field."
  },
  {
   "property": "C97",
   "status": "partial",
   "theorems": [
    "Pvxs.Props.NT.C97_scalar",
    "Pvxs.Props.NT.C97_scalar_refused",
    "Pvxs.Props.NT.C97_enum",
    "Pvxs.Props.NT.C97_table",
    "Pvxs.Props.NT.C97_uri",
    "Pvxs.Props.NT.C97_ndarray",
    "Pvxs.Props.NT.C97_ndarray_float",
    "Pvxs.Props.NT.C97_table_duplicate",
    "Pvxs.Props.NT.C97_table_compound",
    "Pvxs.Props.Rpc.C100_call"
   ],
   "note": "Proved: for every type code and all options NTScalar gives exactly the fields of a separate table, and throws for every other code; NTEnum; NTTable and its labels for every list of columns of scalars with distinct names; NTURI for every list of arguments. Not so, proved: two columns of the same name end the program at an assertion when the type is built; a column may be a structure without fields; the choices floatValue and doubleValue of NTNDArray are scalars, the normative type has arrays. The values assigned by NTURI::call(): C100_call."
  },
  {
   "property": "C98",
   "status": "partial",
   "theorems": [
    "Pvxs.Props.GroupType.C98_fields",
    "Pvxs.Props.GroupType.C98_exactly",
    "Pvxs.Props.GroupType.C98_only",
    "Pvxs.Props.GroupType.C98_structure",
    "Pvxs.Props.GroupType.C98_element",
    "Pvxs.Props.GroupType.C98_disagree"
   ],
   "note": "Proved: for every list of mappings which agree, the type is built and has, path by path, exactly the code and id which the mappings call for, with record._options. Not so, proved: a mapping of type structure with a path of more than one component, a.b, places the structure and its id at a.a, and a.b does not exist; a mapping to a[0] makes no array; mappings which disagree (a is a number for one and a structure for another) leave the group without a type. Missing: link fields, for which an exception is thrown; structure mappings with longer paths are excluded by a hypothesis, because of the first negation."
  },
  {
   "property": "C99",
   "status": "partial",
   "theorems": [
    "Pvxs.Props.Prt.C99_delta_partial",
    "Pvxs.Props.Prt.C99_order",
    "Pvxs.Props.Prt.C99_array",
    "Pvxs.Props.Prt.C99_line",
    "Pvxs.Props.Prt.C99_content",
    "Pvxs.Props.Prt.C99_tree",
    "Pvxs.Props.Prt.C99_int8",
    "Pvxs.Props.Prt.C99_choice",
    "Pvxs.Props.Prt.C99_any",
    "Pvxs.Props.Prt.C99_limit",
    "Pvxs.Props.Prt.C99_elements",
    "Pvxs.Props.Prt.C99_scalars",
    "Pvxs.Props.Prt.C99_type"
   ],
   "note": "Proved: for every value in which no Any holds a structure and no Union has a structure before the selected choice, the delta print-out lists exactly the fields to be listed, each with an expression which finds it in the sense of C18; in order and once for a structure without nested values; every field is one line; scalars other than reals are told apart; arrays are cut at the limit. The code violates the rest: a Union with a structure before other choices has the content of one choice printed under the name of another, or indexes past the end of a vector (C99_choice); a field of a structure inside of an Any is printed with a name which does not find it (C99_any); the limit is not applied to arrays of structures in delta format (C99_limit); the default (tree) format prints int8_t and uint8_t scalars as raw characters (C99_int8). Not modelled: the lines of compound fields in tree format, the text of reals (a parameter)."
  }
 ]
}
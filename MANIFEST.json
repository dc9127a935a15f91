{
 "claims": [
  {
   "property": "C01",
   "status": "proved",
   "theorems": [
    "Verif.Cs.C01_capacity"
   ],
   "note": ""
  },
  {
   "property": "C02",
   "status": "proved",
   "theorems": [
    "Verif.Cs.C02_hit_sound"
   ],
   "note": ""
  },
  {
   "property": "C03",
   "status": "proved",
   "theorems": [
    "Verif.Cs.C03_find_complete",
    "Verif.Cs.C03_miss_witness"
   ],
   "note": "Completeness is proved for Data names without implicit-digest components, as the property states; the witness shows the code misses a packet otherwise."
  },
  {
   "property": "C04",
   "status": "proved",
   "theorems": [
    "Verif.Cs.C04_unique",
    "Verif.Cs.C04_refresh",
    "Verif.Cs.C04_insert_new"
   ],
   "note": ""
  },
  {
   "property": "C05",
   "status": "proved",
   "theorems": [
    "Verif.Cs.C05_erase"
   ],
   "note": "For stores whose Data names contain no implicit-digest component."
  },
  {
   "property": "C06",
   "status": "proved",
   "theorems": [
    "Verif.Cs.C06_lru"
   ],
   "note": ""
  },
  {
   "property": "C07",
   "status": "proved",
   "theorems": [
    "Verif.Cs.C07_priority_fifo"
   ],
   "note": "Staleness clauses assume timers are not overdue (Prompt)."
  },
  {
   "property": "C08",
   "status": "proved",
   "theorems": [
    "Verif.Cs.C08_no_dangling"
   ],
   "note": ""
  },
  {
   "property": "C09",
   "status": "proved",
   "theorems": [
    "Verif.Dnl.C09_remembers",
    "Verif.Dnl.C09_only_added"
   ],
   "note": ""
  },
  {
   "property": "C10",
   "status": "proved",
   "theorems": [
    "Verif.Dnl.C10_capacity_bounds",
    "Verif.Dnl.C10_add_size",
    "Verif.Dnl.C10_size",
    "Verif.Dnl.C10_adjust"
   ],
   "note": ""
  },
  {
   "property": "C100",
   "status": "proved",
   "theorems": [
    "Verif.Nfdc.C100_grammar",
    "Verif.Nfdc.C100_typed",
    "Verif.Nfdc.C100_round_trip",
    "Verif.Nfdc.C100_unsigned",
    "Verif.Nfdc.C100_command",
    "Verif.Nfdc.C100_minus"
   ],
   "note": "What Name, FaceUri and RouteOrigin accept is a parameter of the model. C100_minus: as a FaceId, `-1` is taken for 2^64-1."
  },
  {
   "property": "C101",
   "status": "partial",
   "theorems": [
    "Verif.Nfdc.C101_safe",
    "Verif.Nfdc.C101_batch_partial",
    "Verif.Nfdc.C101_write",
    "Verif.Nfdc.C101_one_shot",
    "Verif.Nfdc.C101_backslash",
    "Verif.Nfdc.C101_abort",
    "Verif.Nfdc.C101_exit",
    "Verif.Nfdc.C101_no_file",
    "Verif.Nfdc.C101_help"
   ],
   "note": "C101_batch_partial needs that each line has an even number of backslashes before those at its end; C101_backslash shows that a command is lost otherwise. C101_write gives every list of commands a file that is read back as these commands. C101_abort: an unknown escape ends nfdc by an uncaught exception. C101_exit: asking for help gives exit code 1."
  },
  {
   "property": "C102",
   "status": "proved",
   "theorems": [
    "Verif.Nfdc.Ops.C102_destroy",
    "Verif.Nfdc.Ops.C102_route_add",
    "Verif.Nfdc.Ops.C102_route_remove",
    "Verif.Nfdc.Ops.C102_create",
    "Verif.Nfdc.Ops.C102_create_again",
    "Verif.Nfdc.Ops.C102_face_list",
    "Verif.Nfdc.Ops.C102_route_list",
    "Verif.Nfdc.Ops.C102_none"
   ],
   "note": "NFD is any function from the history of requests to answers. C102_none: route remove and route list are undefined only if NFD answers a query for a FaceId with several faces."
  },
  {
   "property": "C103",
   "status": "partial",
   "theorems": [
    "Verif.Eth.C103_one_face",
    "Verif.Eth.C103_config_partial",
    "Verif.Eth.C103_closing",
    "Verif.Eth.C103_added",
    "Verif.Eth.C103_added_channel",
    "Verif.Eth.C103_channels",
    "Verif.Eth.C103_listen_partial",
    "Verif.Eth.C103_never_retried"
   ],
   "note": "C103_closing: an interface that calls for a multicast face may be left without one, if its face is just being closed when the configuration is applied. C103_never_retried: a channel for which listening has failed once never receives."
  },
  {
   "property": "C104",
   "status": "partial",
   "theorems": [
    "Verif.Fs.C104_check",
    "Verif.Fs.C104_dry_run_partial",
    "Verif.Fs.C104_dry_run_marks",
    "Verif.Fs.C104_applied",
    "Verif.Fs.C104_histories",
    "Verif.Fs.C104_schemes",
    "Verif.Fs.C104_applicable_partial",
    "Verif.Fs.C104_no_rules",
    "Verif.Fs.C104_start_up",
    "Verif.Fs.C104_start_up_refused"
   ],
   "note": "C104_dry_run_marks: checking the section already changes the setting for congestion marking of faces made later. C104_no_rules: a section with a rule under netdev_bound passes the check but can never be applied."
  },
  {
   "property": "C105",
   "status": "proved",
   "theorems": [
    "Verif.Nw.C105_distance",
    "Verif.Nw.C105_scope"
   ],
   "note": "For networks of any topology with the strategies of C106_supplied."
  },
  {
   "property": "C106",
   "status": "proved",
   "theorems": [
    "Verif.Nw.C106_data_answers",
    "Verif.Nw.C106_authentic",
    "Verif.Nw.C106_nack_answers",
    "Verif.Nw.C106_interest_origin",
    "Verif.Nw.C106_supplied"
   ],
   "note": "For networks of any topology, with loss, duplication, reordering and delay."
  },
  {
   "property": "C107",
   "status": "proved",
   "theorems": [
    "Verif.Nw.C107_round_trip",
    "Verif.Nw.C107_best_route",
    "Verif.Nw.C107_multicast"
   ],
   "note": "Liveness along a path of any length; the conditions at each node are those of TripSpec.Ready."
  },
  {
   "property": "C108",
   "status": "partial",
   "theorems": [
    "Verif.Ac.C108_exit_code",
    "Verif.Ac.C108_ends",
    "Verif.Ac.C108_stages",
    "Verif.Ac.C108_routes",
    "Verif.Ac.C108_daemon_retries",
    "Verif.Ac.C108_daemon_partial",
    "Verif.Ac.C108_network_change",
    "Verif.Ac.C108_malformed",
    "Verif.Ac.C108_no_identity"
   ],
   "note": "Proved for the one-shot mode and for the daemon's retries. Missing: the daemon keeps running; it does not after a network change during the first stage, after a malformed Data, or without default identity (witnesses)."
  },
  {
   "property": "C109",
   "status": "partial",
   "theorems": [
    "Verif.Ar.C109_registers",
    "Verif.Ar.C109_ends",
    "Verif.Ar.C109_nothing",
    "Verif.Ar.C109_local_partial",
    "Verif.Ar.C109_blacklist",
    "Verif.Ar.C109_local_at_start"
   ],
   "note": "Missing: prefixes are registered on non-local faces only; at start-up they are registered on local faces too (witness)."
  },
  {
   "property": "C11",
   "status": "proved",
   "theorems": [
    "Verif.Nt.C11_hashtable_is_map",
    "Verif.Nt.C11_no_fault"
   ],
   "note": ""
  },
  {
   "property": "C110",
   "status": "partial",
   "theorems": [
    "Verif.Ws.C110_receive",
    "Verif.Ws.C110_send",
    "Verif.Ws.C110_states",
    "Verif.Ws.C110_detects",
    "Verif.Ws.C110_patient",
    "Verif.Ws.C110_counters",
    "Verif.Ws.C110_separate",
    "Verif.Ws.C110_no_fault_partial",
    "Verif.Ws.C110_crash",
    "Verif.Ws.C110_oversized",
    "Verif.Ws.C110_poison"
   ],
   "note": "Missing: no peer can end NFD, nor make it take packets above the maximum size; a reset right after the handshake does the one (witness), and a long message the other, on which stream faces fail that it is forwarded to (C110_oversized, C110_poison)."
  },
  {
   "property": "C111",
   "status": "partial",
   "theorems": [
    "Verif.Re.C111_data",
    "Verif.Re.C111_nacks",
    "Verif.Re.C111_one",
    "Verif.Re.C111_multicast_partial",
    "Verif.Re.C111_access_partial",
    "Verif.Re.C111_learn_partial",
    "Verif.Re.C111_broadcast_partial",
    "Verif.Re.C111_asf_partial",
    "Verif.Re.C111_new_next_hop",
    "Verif.Re.C111_websocket",
    "Verif.Re.C111_stream",
    "Verif.Re.C111_datagram"
   ],
   "note": "Proved for Data and Nacks, and for Interests of best-route and random. Missing: Interests of the multicast, access, self-learning and ASF strategies, whose theorems say exactly when a failing face makes their behaviour undefined."
  },
  {
   "property": "C112",
   "status": "partial",
   "theorems": [
    "Verif.Nfdc.CsErase.C112_complete_partial",
    "Verif.Nfdc.CsErase.C112_bounded",
    "Verif.Nfdc.CsErase.C112_serve_off"
   ],
   "note": "Missing: completeness while serving is off; there nfdc reports success after one command although more than it erased was asked for and is stored (C112_serve_off)."
  },
  {
   "property": "C113",
   "status": "proved",
   "theorems": [
    "Verif.Nfdc.Report.C113_report",
    "Verif.Nfdc.Report.C113_exit",
    "Verif.Nfdc.Report.C113_shown"
   ],
   "note": "Texts from NFD are assumed to have no control characters, which xml::Text does not treat. Timestamps and enumerations are the text that ndn-cxx prints for them."
  },
  {
   "property": "C114",
   "status": "proved",
   "theorems": [
    "Verif.Nfdc.Strategy.C114_show",
    "Verif.Nfdc.Strategy.C114_set",
    "Verif.Nfdc.Strategy.C114_set_unanswered",
    "Verif.Nfdc.Strategy.C114_unset"
   ],
   "note": "The dataset is fetched as one snapshot. Authorization is not part of this (C63)."
  },
  {
   "property": "C115",
   "status": "proved",
   "theorems": [
    "Verif.Nfdc.CsConfig.C115_config",
    "Verif.Nfdc.CsConfig.C115_switches_keep",
    "Verif.Nfdc.CsConfig.C115_history"
   ],
   "note": "setFlagBit, hasFlagBit and getFlagBit of ndn-cxx are modelled from their documentation."
  },
  {
   "property": "C116",
   "status": "proved",
   "theorems": [
    "Verif.Tb.C116_get",
    "Verif.Tb.C116_getFib",
    "Verif.Tb.C116_getParent",
    "Verif.Tb.C116_lpm",
    "Verif.Tb.C116_apart",
    "Verif.Tb.C116_info"
   ],
   "note": "A strategy object is named by the prefix it is set for. get(pit::Entry) and findExactMatch of the accessor are not modelled."
  },
  {
   "property": "C117",
   "status": "partial",
   "theorems": [
    "Verif.Tb.C117_found",
    "Verif.Tb.C117_hint",
    "Verif.Tb.C117_crash",
    "Verif.Tb.C117_lookup",
    "Verif.Tb.C117_same_partial",
    "Verif.Tb.C117_hint_unmeasured",
    "Verif.Tb.C117_never_probed",
    "Verif.Tb.C117_stale"
   ],
   "note": "The full property (every Interest is handled, and what comes back is recorded where the decision looked) is false of the code. C117_crash: an Interest with a forwarding hint makes getOrCreateNamespaceInfo fail its assertion; C117_hint says exactly when. C117_stale: after a longer route is removed, results are recorded on another entry than the one decisions use; C117_hint_unmeasured: with a hint they are never recorded there. C117_same_partial has the conditions under which it holds."
  },
  {
   "property": "C118",
   "status": "partial",
   "theorems": [
    "Verif.Tb.C118_alive_partial",
    "Verif.Tb.C118_held_partial",
    "Verif.Tb.C118_fire",
    "Verif.Tb.C118_probe_dangles",
    "Verif.Tb.C118_probe_dangles_unset",
    "Verif.Tb.C118_timeout_dangles",
    "Verif.Tb.C118_nested_dangles"
   ],
   "note": "The full property (no event uses a destroyed strategy object) is false of the code, with four witnesses. Proved: it holds while no strategy is replaced or unset, and for the timeouts as long as every change of strategy changes its type. Timers of the access strategy are in C120."
  },
  {
   "property": "C119",
   "status": "partial",
   "theorems": [
    "Verif.Et.C119_who",
    "Verif.Et.C119_link",
    "Verif.Et.C119_delivery",
    "Verif.Et.C119_source",
    "Verif.Et.C119_path",
    "Verif.Et.C119_idle",
    "Verif.Et.C119_idle_bound",
    "Verif.Et.C119_only_on_demand",
    "Verif.Et.C119_frame",
    "Verif.Et.C119_send",
    "Verif.Et.C119_interface",
    "Verif.Et.C119_permanent",
    "Verif.Et.C119_receiving_partial",
    "Verif.Et.C119_faults",
    "Verif.Et.C119_safe_partial",
    "Verif.Et.C119_null_pcap",
    "Verif.Et.C119_debug_crash",
    "Verif.Et.C119_deaf"
   ],
   "note": "Two parts of the full property are false of the code, with witnesses: a handler queued before the face is closed uses libpcap after it is closed (safety is proved for event loops that handle a completed wait at once), and a permanent face whose wait has failed once receives nothing any more (receiving is proved for runs in which no wait fails)."
  },
  {
   "property": "C12",
   "status": "proved",
   "theorems": [
    "Verif.Nt.C12_structure",
    "Verif.Nt.C12_lookup",
    "Verif.Nt.C12_eraseIfEmpty",
    "Verif.Nt.C12_no_fault"
   ],
   "note": ""
  },
  {
   "property": "C120",
   "status": "partial",
   "theorems": [
    "Verif.Tb.C120_alive_partial",
    "Verif.Tb.C120_held_partial",
    "Verif.Tb.C120_fire",
    "Verif.Tb.C120_one",
    "Verif.Tb.C120_cancel",
    "Verif.Tb.C120_runs",
    "Verif.Tb.C120_unset_dangles",
    "Verif.Tb.C120_nested_dangles",
    "Verif.Tb.C120_digest_dangles"
   ],
   "note": "The full property is false of the code, with three witnesses. It is proved for histories in which no strategy is replaced or unset, and, for entries whose name does not end in an implicit digest, for histories in which every change of strategy changes the type in force."
  },
  {
   "property": "C121",
   "status": "partial",
   "theorems": [
    "Verif.Srv.C121_found_partial",
    "Verif.Srv.C121_host",
    "Verif.Srv.C121_no_answer",
    "Verif.Srv.C121_safe_partial",
    "Verif.Srv.C121_wrong_port",
    "Verif.Srv.C121_alias",
    "Verif.Srv.C121_over_read",
    "Verif.Srv.C121_truncated"
   ],
   "note": "The full property is false of the code, with witnesses: the port is read from the wrong place unless the owner of the record is written as a pointer, the type of the record is not checked, and up to 18 octets after the end of the answer are read. Proved: the host is right for all answers that begin with an SRV record, the port if the owner takes two octets; no access outside the buffer for answers up to 495 octets."
  },
  {
   "property": "C122",
   "status": "partial",
   "theorems": [
    "Verif.Strat.Sl.C122_learns_partial",
    "Verif.Strat.Sl.C122_discovery",
    "Verif.Strat.Sl.C122_routed",
    "Verif.Strat.Sl.C122_refused",
    "Verif.Strat.Sl.C122_data_now",
    "Verif.Strat.Sl.C122_data_later",
    "Verif.Strat.Sl.C122_found",
    "Verif.Strat.Sl.C122_gone",
    "Verif.Strat.Sl.C122_lookup",
    "Verif.Strat.Sl.C122_remembers",
    "Verif.Strat.Sl.C122_keeps",
    "Verif.Strat.Sl.C122_dangling",
    "Verif.Strat.Sl.C122_unanswered",
    "Verif.Strat.Sl.C122_learns_from_chosen",
    "Verif.Strat.Sl.C122_learns_after_change",
    "Verif.Strat.Sl.C122_two_entries",
    "Verif.Strat.Sl.C122_nack_asserts"
   ],
   "note": "The full property is false of the code, with witnesses: an answer that waits for an announcement is lost when there is none, the strategy object is used after it was replaced, a NoRoute Nack for a discovery Interest fails an assertion, an announcement is not used when the Data satisfies two Interests, and routes are learnt from faces that were sent no discovery Interest if the sender chose the next hop or the strategy changed in between. Proved: where Interests go and with which mark; what is learnt, for histories without those two; what happens to Data; the answer when the announcement is found."
  },
  {
   "property": "C123",
   "status": "partial",
   "theorems": [
    "Verif.Run.C123_ends_partial",
    "Verif.Run.C123_exit_code",
    "Verif.Run.C123_failures",
    "Verif.Run.C123_noticed",
    "Verif.Run.C123_signal",
    "Verif.Run.C123_together",
    "Verif.Run.C123_starts",
    "Verif.Run.C123_safe",
    "Verif.Run.C123_stuck",
    "Verif.Run.C123_post_dangling",
    "Verif.Run.C123_idle"
   ],
   "note": "The full property is false of the code, with witnesses: if the RIB thread fails before the main thread has looked, the process waits for ever; a handler still running when the RIB thread has failed may post to an io_context that is gone; the forwarder goes on alone if the RIB thread runs out of work. Proved for all schedules: after the start has succeeded, a signal or a failure of either thread ends both; the exit code; nothing else that is gone is used."
  },
  {
   "property": "C124",
   "status": "partial",
   "theorems": [
    "Verif.Svc.C124_starts",
    "Verif.Svc.C124_no_half",
    "Verif.Svc.C124_transport",
    "Verif.Svc.C124_applied",
    "Verif.Svc.C124_closed",
    "Verif.Svc.C124_exclusive_partial",
    "Verif.Svc.C124_reaches_partial",
    "Verif.Svc.C124_both",
    "Verif.Svc.C124_unread",
    "Verif.Svc.C124_repeated"
   ],
   "note": "The full property is false of the code, with witnesses: two sections rib get round the rule that localhop commands and propagation exclude each other; a repeated option path or port makes the RIB manager connect where the forwarder does not listen; numbers that cannot be read are silently replaced by defaults. Proved for all files otherwise. What a validator accepts is a parameter."
  },
  {
   "property": "C125",
   "status": "proved",
   "theorems": [
    "Verif.Fe.C125_follow",
    "Verif.Fe.C125_list",
    "Verif.Fe.C125_life",
    "Verif.Fe.C125_says",
    "Verif.Fe.C125_alive",
    "Verif.Fe.C125_created_down"
   ],
   "note": "For forwarders that do not add a face whose transport is closed already, and add reserved faces before the manager is made, as NFD does. C125_created_down shows what notifications do not tell: a face on an Ethernet interface that is not running is created down. Delivery of the notifications is not modelled."
  },
  {
   "property": "C126",
   "status": "partial",
   "theorems": [
    "Verif.Pr.C126_choice_partial",
    "Verif.Pr.C126_always_partial",
    "Verif.Pr.C126_five",
    "Verif.Pr.C126_sum",
    "Verif.Pr.C126_unreachable"
   ],
   "note": "The full property is false of the code: sums of double fall short of 1, and with six faces and the random number 1 - 2^-53 no face is chosen (C126_unreachable). Proved for all rankings up to n * 2^-52 at the ends of the parts, and without exception for up to five faces. The distribution of the generator is not modelled; the model of rounding is IEEE 754 to nearest."
  },
  {
   "property": "C127",
   "status": "partial",
   "theorems": [
    "Verif.It.C127_to_client",
    "Verif.It.C127_to_forwarder",
    "Verif.It.C127_not_inside",
    "Verif.It.C127_arrives",
    "Verif.It.C127_safe_partial",
    "Verif.It.C127_late",
    "Verif.It.C127_client_gone"
   ],
   "note": "Missing: no packet reaches the forwarder after its face is removed (C127_late), and safety when the client is destroyed while packets wait (C127_client_gone; NFD does not do this while it runs). One client, first-in-first-out event loop."
  },
  {
   "property": "C128",
   "status": "partial",
   "theorems": [
    "Verif.Fch.C128_hub",
    "Verif.Fch.C128_only_partial",
    "Verif.Fch.C128_no_code",
    "Verif.Fch.C128_url_partial",
    "Verif.Fch.C128_url6_partial",
    "Verif.Fch.C128_query",
    "Verif.Fch.C128_scheme",
    "Verif.Fch.C128_only_http",
    "Verif.Fch.C128_malformed",
    "Verif.Fch.C128_negative",
    "Verif.Fch.C128_indeterminate"
   ],
   "note": "Missing: other numbers than 200 count as 200 (C128_negative), a status line without a number makes the program read a variable that was not set (C128_no_code), and URLs with a query are refused (C128_query). Regular expressions, streams and number extraction are modelled as in libstdc++ with the C locale; the connection is a parameter."
  },
  {
   "property": "C129",
   "status": "partial",
   "theorems": [
    "Verif.Ap.C129_spacing_partial",
    "Verif.Ap.C129_probes_partial",
    "Verif.Ap.C129_found",
    "Verif.Ap.C129_never",
    "Verif.Ap.C129_twice"
   ],
   "note": "Proved for every history when the measurements lifetime is above five seconds and the FIB entries used are in the strategy's namespace. The full statement is false: with a strategy chosen for names longer than the FIB entry nothing is ever probed (C129_never), and with a lifetime that is allowed but short there are probes at less than the interval (C129_twice). Missing also: changes of the strategy choice, and names longer than the maximum depth of the name tree."
  },
  {
   "property": "C13",
   "status": "proved",
   "theorems": [
    "Verif.Nt.C13_lpm",
    "Verif.Nt.C13_lpm_entry",
    "Verif.Nt.C13_lpm_pit"
   ],
   "note": ""
  },
  {
   "property": "C130",
   "status": "partial",
   "theorems": [
    "Verif.Log.C130_accepted",
    "Verif.Log.C130_level",
    "Verif.Log.C130_either",
    "Verif.Log.C130_nothing",
    "Verif.Log.C130_reload_partial",
    "Verif.Log.C130_stays",
    "Verif.Log.C130_second",
    "Verif.Log.C130_sections"
   ],
   "note": "All clauses are proved for every section but one: a reload is not the same as a start with the same file for modules that are not of NFD (C130_stays). setLevel and the names of the levels are those of ndn-cxx and trusted or parameters."
  },
  {
   "property": "C131",
   "status": "partial",
   "theorems": [
    "Verif.Nfdc.TextList.C131_faces_partial",
    "Verif.Nfdc.TextList.C131_fib",
    "Verif.Nfdc.TextList.C131_rib",
    "Verif.Nfdc.TextList.C131_strategies",
    "Verif.Nfdc.TextList.C131_channels",
    "Verif.Nfdc.TextList.C131_blanks"
   ],
   "note": "Proved for all datasets whose URIs and names are words; URIs with blanks or ends of lines, which Unix paths may contain, can be mistaken (C131_blanks). What ndn-cxx prints for names, origins and flags is a parameter."
  },
  {
   "property": "C132",
   "status": "partial",
   "theorems": [
    "Verif.Tb.C132_where",
    "Verif.Tb.C132_exact",
    "Verif.Tb.C132_partial",
    "Verif.Tb.C132_crash",
    "Verif.Tb.C132_found",
    "Verif.Tb.C132_own",
    "Verif.Tb.C132_hidden",
    "Verif.Tb.Access.C132_last",
    "Verif.Tb.Access.C132_samples",
    "Verif.Tb.Access.C132_sent",
    "Verif.Tb.Access.C132_no_other"
   ],
   "note": "No Data stops the forwarder is false: another strategy set between the names of Interest and Data makes an assertion fail (C132_crash); C132_exact is the exact condition and C132_partial the case without such a strategy. C132_sent and C132_no_other join the tables with the contents of the information, for one instance of the strategy. The estimator of ndn-cxx is represented by its samples."
  },
  {
   "property": "C133",
   "status": "proved",
   "theorems": [
    "Verif.Strat.C133_alone",
    "Verif.Strat.C133_all",
    "Verif.Strat.C133_given_up",
    "Verif.Strat.C133_again",
    "Verif.Strat.C133_timeout",
    "Verif.Strat.C133_packets",
    "Verif.Strat.C133_timeout_packets"
   ],
   "note": "C133_packets and C133_timeout_packets are about the packets the forwarder sends, for an Interest and at a timeout; the others are about the actions that the strategy orders. C133_timeout_packets asks that the downstream still has its in-record and its face; without the in-record the code fails an assertion, which the model turns into no action. The next hop known for the prefix is an argument here and is the subject of C132."
  },
  {
   "property": "C134",
   "status": "proved",
   "theorems": [
    "Verif.Lp.C134_once",
    "Verif.Lp.C134_silent",
    "Verif.Lp.C134_unusable",
    "Verif.Lp.C134_usable"
   ],
   "note": "Frames are LpPackets; octets that ndn-cxx cannot decode as one are counted in the same catch block as nInLpInvalid and are no event of the model. What happens later to fragments that are kept is C43 and C46."
  },
  {
   "property": "C135",
   "status": "proved",
   "theorems": [
    "Verif.Lp.C135_whole",
    "Verif.Lp.C45_fits"
   ],
   "note": "One call of the sending functions, in any state and with any options, if no assertion fails (C48 says when none does). Network packets are not empty. A frame is handed to the transport or, if above the MTU, counted (C45_fits)."
  },
  {
   "property": "C136",
   "status": "proved",
   "theorems": [
    "Verif.Lp.C136_link"
   ],
   "note": "The frames are those made for the packet; that none is dropped for the MTU is C45 (partial there). Frames arrive in order and nothing else arrives in between; any order, duplicates and other frames in between are C43. Neither end runs into a failed assertion (C48). How often the packet is passed on is C43_at_most."
  },
  {
   "property": "C14",
   "status": "proved",
   "theorems": [
    "Verif.Nt.C14_full",
    "Verif.Nt.C14_partial_enumeration",
    "Verif.Nt.C14_all_matches"
   ],
   "note": ""
  },
  {
   "property": "C15",
   "status": "proved",
   "theorems": [
    "Verif.Tb.C15_contents",
    "Verif.Tb.C15_lpm",
    "Verif.Tb.C15_lpm_pit",
    "Verif.Tb.C15_lpm_meas"
   ],
   "note": ""
  },
  {
   "property": "C16",
   "status": "proved",
   "theorems": [
    "Verif.Tb.C16_sorted_unique",
    "Verif.Tb.C16_nonempty",
    "Verif.Tb.C16_add_or_update",
    "Verif.Tb.C16_remove"
   ],
   "note": ""
  },
  {
   "property": "C17",
   "status": "partial",
   "theorems": [
    "Verif.Tb.C17_announcement_partial",
    "Verif.Tb.C17_wrong_nexthop"
   ],
   "note": "The code violates the property: the iterator is taken before the re-sort. Proved: what is announced, when it is right, and a refutation of the full statement."
  },
  {
   "property": "C18",
   "status": "proved",
   "theorems": [
    "Verif.Tb.C18_unique",
    "Verif.Tb.C18_size",
    "Verif.Tb.C18_insert",
    "Verif.Tb.C18_erase",
    "Verif.Tb.C18_find",
    "Verif.Tb.C18_find_asserts"
   ],
   "note": "find never changes the table; C18_find_asserts is a history in which find reaches a failing assertion instead of answering."
  },
  {
   "property": "C19",
   "status": "proved",
   "theorems": [
    "Verif.Tb.C19_data_matches"
   ],
   "note": ""
  },
  {
   "property": "C20",
   "status": "proved",
   "theorems": [
    "Verif.Tb.C20_one_per_face",
    "Verif.Tb.C20_in_record",
    "Verif.Tb.C20_out_record",
    "Verif.Tb.C20_delete"
   ],
   "note": ""
  },
  {
   "property": "C21",
   "status": "proved",
   "theorems": [
    "Verif.Tb.C21_effective",
    "Verif.Tb.C21_effective_entries",
    "Verif.Tb.C21_insert",
    "Verif.Tb.C21_erase",
    "Verif.Tb.C21_others",
    "Verif.Tb.C21_size"
   ],
   "note": ""
  },
  {
   "property": "C22",
   "status": "partial",
   "theorems": [
    "Verif.Tb.C22_measurements",
    "Verif.Tb.C22_pit_partial",
    "Verif.Tb.C22_measurements_owner",
    "Verif.Tb.C22_pit_owner",
    "Verif.Tb.C22_pit_owner_partial",
    "Verif.Tb.C22_digest_not_cleared"
   ],
   "note": "Proved for measurements entries and for PIT entries whose name does not end with an implicit digest; refuted for digest-named PIT entries (they are not visited by the strategy change)."
  },
  {
   "property": "C23",
   "status": "proved",
   "theorems": [
    "Verif.Tb.C23_cleanup_pending",
    "Verif.Tb.C23_step",
    "Verif.Tb.C23_extend_guarantee",
    "Verif.Tb.C23_extend",
    "Verif.Tb.C23_get",
    "Verif.Tb.C23_cleanup",
    "Verif.Tb.C23_size"
   ],
   "note": ""
  },
  {
   "property": "C24",
   "status": "proved",
   "theorems": [
    "Verif.Tb.C24_cleanup"
   ],
   "note": ""
  },
  {
   "property": "C25",
   "status": "proved",
   "theorems": [
    "Verif.Fw.C25_interest_in",
    "Verif.Fw.C25_data_in",
    "Verif.Fw.C25_data_out",
    "Verif.Fw.C25_out",
    "Verif.Fw.C25_downstreams",
    "Verif.Fw.C25_nexthop_exception"
   ],
   "note": "For Interests and Nacks sent by a strategy: strategies that respect wouldViolateScope. The explicit NextHopFaceId exception is shown to exist."
  },
  {
   "property": "C26",
   "status": "proved",
   "theorems": [
    "Verif.Fw.C26_zero_dropped",
    "Verif.Fw.C26_zero_stays_local",
    "Verif.Fw.C26_decremented"
   ],
   "note": ""
  },
  {
   "property": "C27",
   "status": "proved",
   "theorems": [
    "Verif.Fw.C27_loop",
    "Verif.Fw.C27_not_recorded",
    "Verif.Fw.C27_not_looping"
   ],
   "note": ""
  },
  {
   "property": "C28",
   "status": "proved",
   "theorems": [
    "Verif.Fw.C28_data",
    "Verif.Fw.C28_data_and_nacks"
   ],
   "note": "For strategies with the default reactions to Data."
  },
  {
   "property": "C29",
   "status": "proved",
   "theorems": [
    "Verif.Fw.C29_downstreams",
    "Verif.Fw.C29_entries"
   ],
   "note": "For strategies that send received Data to all pending downstreams (all supplied ones)."
  },
  {
   "property": "C30",
   "status": "proved",
   "theorems": [
    "Verif.Fw.C30_unsolicited"
   ],
   "note": ""
  },
  {
   "property": "C31",
   "status": "proved",
   "theorems": [
    "Verif.Fw.C31_nack_ignored",
    "Verif.Fw.C31_nack_accepted",
    "Verif.Fw.C31_nack_out",
    "Verif.Fw.C31_pending_was_received",
    "Verif.Fw.C31_nack_cancels",
    "Verif.Strat.C31_nack_timer"
   ],
   "note": ""
  },
  {
   "property": "C32",
   "status": "proved",
   "theorems": [
    "Verif.Fw.C32_one_timer",
    "Verif.Fw.C32_fires",
    "Verif.Fw.C32_eventually_gone",
    "Verif.Strat.C32_expires_with_last_downstream"
   ],
   "note": ""
  },
  {
   "property": "C33",
   "status": "partial",
   "theorems": [
    "Verif.Fw.C33_finalize_partial",
    "Verif.Fw.C33_answer",
    "Verif.Fw.C33_answer_remembered",
    "Verif.Fw.C33_not_for_reused_entry"
   ],
   "note": "The code never resets isSatisfied, so an entry reused after being satisfied can be finalized unanswered without its nonces being inserted (C33_not_for_reused_entry); C33_finalize_partial is therefore stated for the entry's satisfied flag."
  },
  {
   "property": "C34",
   "status": "proved",
   "theorems": [
    "Verif.Fw.C34_obeyed"
   ],
   "note": ""
  },
  {
   "property": "C35",
   "status": "proved",
   "theorems": [
    "Verif.Ft.C35_fresh",
    "Verif.Ft.C35_unique",
    "Verif.Ft.C35_get",
    "Verif.Ft.C35_close",
    "Verif.Ft.C35_no_fault"
   ],
   "note": ""
  },
  {
   "property": "C36",
   "status": "proved",
   "theorems": [
    "Verif.Strat.C36_new",
    "Verif.Strat.C36_retx",
    "Verif.Strat.C36_no_fault"
   ],
   "note": ""
  },
  {
   "property": "C37",
   "status": "proved",
   "theorems": [
    "Verif.Strat.C37_interest",
    "Verif.Strat.C37_loop",
    "Verif.Strat.C37_intervals",
    "Verif.Strat.C37_new_next_hop"
   ],
   "note": ""
  },
  {
   "property": "C38",
   "status": "proved",
   "theorems": [
    "Verif.Strat.C38_nack"
   ],
   "note": ""
  },
  {
   "property": "C39",
   "status": "proved",
   "theorems": [
    "Verif.Strat.C39_entry",
    "Verif.Strat.C39_history",
    "Verif.Strat.C39_bounds",
    "Verif.Strat.C39_upstream",
    "Verif.Strat.C39_fixed",
    "Verif.Strat.C37_intervals"
   ],
   "note": ""
  },
  {
   "property": "C40",
   "status": "partial",
   "theorems": [
    "Verif.Strat.C40_versioned",
    "Verif.Strat.C40_unversioned",
    "Verif.Strat.C40_create_versioned",
    "Verif.Strat.C40_create_unversioned",
    "Verif.Strat.C40_other_partial",
    "Verif.Strat.C40_same_type",
    "Verif.Strat.C40_proper_prefix"
   ],
   "note": "An unversioned proper prefix of a registered base name resolves to a strategy although it should resolve to none (C40_proper_prefix); other names outside the registry do resolve to none (C40_other_partial). Version components with leading zeros are excluded."
  },
  {
   "property": "C41",
   "status": "partial",
   "theorems": [
    "Verif.Strat.C41_pending_partial",
    "Verif.Strat.C41_not_pending_again"
   ],
   "note": "The code never clears a stored Nack, so the property fails for faces that sent one (C41_not_pending_again); proved for the others."
  },
  {
   "property": "C42",
   "status": "proved",
   "theorems": [
    "Verif.Strat.C42_new",
    "Verif.Strat.C42_retx",
    "Verif.Strat.C42_no_fault"
   ],
   "note": "Measurements are an arbitrary input of the decision; how they are kept is C77."
  },
  {
   "property": "C43",
   "status": "proved",
   "theorems": [
    "Verif.Lp.C43_at_most",
    "Verif.Lp.C43_delivered",
    "Verif.Lp.C43_once",
    "Verif.Lp.C43_second_set",
    "Verif.Lp.C43_sent",
    "Verif.Lp.C43_genuine",
    "Verif.Lp.C43_transmitted"
   ],
   "note": "C43_second_set shows why the count is per fragment: a complete second set received after delivery is delivered again when reliability is off. C43_sent/genuine/transmitted assume the network packets are TLV elements and fewer than 2^64 link packets are sent."
  },
  {
   "property": "C44",
   "status": "proved",
   "theorems": [
    "Verif.Lp.C44_fit",
    "Verif.Lp.C44_whole",
    "Verif.Lp.C44_refused",
    "Verif.Lp.C44_octets"
   ],
   "note": ""
  },
  {
   "property": "C45",
   "status": "partial",
   "theorems": [
    "Verif.Lp.C45_partial",
    "Verif.Lp.C45_unreliable_partial",
    "Verif.Lp.C45_mark",
    "Verif.Lp.C45_length",
    "Verif.Lp.C45_fits"
   ],
   "note": "The full property is false: C45_mark and C45_length are proved counterexamples. C45_partial characterises every drop: only with reliability, only packets carrying Acks, and only when a congestion mark was added or the packet without Acks takes 253 or 254 octets. Options concerning size are assumed not to change during the run."
  },
  {
   "property": "C46",
   "status": "proved",
   "theorems": [
    "Verif.Lp.C46_timer",
    "Verif.Lp.C46_fires",
    "Verif.Lp.C46_only",
    "Verif.Lp.C46_complete",
    "Verif.Lp.C46_deadline"
   ],
   "note": ""
  },
  {
   "property": "C47",
   "status": "proved",
   "theorems": [
    "Verif.Lp.C47_bound",
    "Verif.Lp.C47_queued",
    "Verif.Lp.C47_outcome",
    "Verif.Lp.C47_after",
    "Verif.Lp.C47_dropped",
    "Verif.Lp.C47_dropped_only",
    "Verif.Lp.C47_acked",
    "Verif.Lp.C47_which",
    "Verif.Lp.C47_exhausted"
   ],
   "note": "Assuming at most 2^64 link packets are sent, so that sequence numbers do not repeat."
  },
  {
   "property": "C48",
   "status": "proved",
   "theorems": [
    "Verif.Lp.C48_start",
    "Verif.Lp.C48_no_fault",
    "Verif.Lp.C48_small_mtu_idle",
    "Verif.Lp.C48_small_mtu_send"
   ],
   "note": "For MTUs of at least 64 (the minimum NFD allows to be set); the two small-MTU theorems show the assumption is needed."
  },
  {
   "property": "C49",
   "status": "proved",
   "theorems": [
    "Verif.Lp.C49_duplicate",
    "Verif.Lp.C49_new",
    "Verif.Lp.C49_delivered"
   ],
   "note": "The clock is assumed to count from an epoch more than one RTO ago."
  },
  {
   "property": "C50",
   "status": "proved",
   "theorems": [
    "Verif.Lp.C50_exact",
    "Verif.Lp.C50_prefix",
    "Verif.Lp.C50_timer",
    "Verif.Lp.C50_idle",
    "Verif.Lp.C50_switched_off"
   ],
   "note": "An Ack placed in a packet that the final MTU check then drops counts as sent (see C45). C50_switched_off: disabling and enabling reliability leaves Acks pending with no timer running."
  },
  {
   "property": "C51",
   "status": "proved",
   "theorems": [
    "Verif.Lp.C51_received",
    "Verif.Lp.C51_local",
    "Verif.Lp.C51_sent"
   ],
   "note": ""
  },
  {
   "property": "C52",
   "status": "proved",
   "theorems": [
    "Verif.Tp.C52_received",
    "Verif.Tp.C52_exact",
    "Verif.Tp.C52_continues",
    "Verif.Tp.C52_sent",
    "Verif.Tp.C52_sent_all",
    "Verif.Tp.C52_live"
   ],
   "note": "Unix and TCP stream transports; the event loop and the socket are an explicit environment that may cut, delay and fail operations in any way."
  },
  {
   "property": "C53",
   "status": "proved",
   "theorems": [
    "Verif.Tp.C53_path",
    "Verif.Tp.C53_no_send",
    "Verif.Tp.C53_final",
    "Verif.Tp.C53_close",
    "Verif.Tp.C53_closes"
   ],
   "note": "C53_no_send is about executions in which the assertion of C80 does not fail."
  },
  {
   "property": "C54",
   "status": "proved",
   "theorems": [
    "Verif.Lp.C54_sustained",
    "Verif.Lp.C54_packet"
   ],
   "note": ""
  },
  {
   "property": "C55",
   "status": "partial",
   "theorems": [
    "Verif.Rib.C55_partial",
    "Verif.Rib.C55_dead_partial",
    "Verif.Rib.C55_violated_capture_flag",
    "Verif.Rib.C55_violated_second_origin",
    "Verif.Rib.C55_violated_cost_increase",
    "Verif.Rib.C55_violated_own_route",
    "Verif.Rib.C55_violated_cheaper",
    "Verif.Rib.C55_violated_first_capture",
    "Verif.Rib.C55_violated_replaced",
    "Verif.Rib.C55_violated_only_capture",
    "Verif.Rib.C55_violated_inherit_off",
    "Verif.Rib.C55_violated_live_face"
   ],
   "note": "Proved for benign histories; for each condition of being benign a history that breaks only it and makes the FIB wrong is proved."
  },
  {
   "property": "C56",
   "status": "proved",
   "theorems": [
    "Verif.Rib.C56_tree",
    "Verif.Rib.C56_faults",
    "Verif.Rib.C56_crash",
    "Verif.Rib.C56_violated_crash"
   ],
   "note": "The tree structure holds after every history; the only crash, a null pointer, is characterized exactly."
  },
  {
   "property": "C57",
   "status": "partial",
   "theorems": [
    "Verif.Rib.C57_partial",
    "Verif.Rib.C57_violated",
    "Verif.Rib.C57_violated_underflow"
   ],
   "note": "Missing: registrations that change the capture flag of an existing route, for which it is false."
  },
  {
   "property": "C58",
   "status": "partial",
   "theorems": [
    "Verif.Rib.Async.C58_once_partial",
    "Verif.Rib.Async.C58_overlap_partial",
    "Verif.Rib.Async.C58_progress_partial",
    "Verif.Rib.Async.C58_terminates_partial",
    "Verif.Rib.Async.C58_routes_partial",
    "Verif.Rib.Async.C58_faults_partial",
    "Verif.Rib.Async.C58_violated_twice",
    "Verif.Rib.Async.C58_violated_both",
    "Verif.Rib.Async.C58_violated_retry"
   ],
   "note": "Missing: runs in which more than one command of a batch is refused for the batch's face, for which it is false; retries of removals are additions."
  },
  {
   "property": "C59",
   "status": "proved",
   "theorems": [
    "Verif.Rib.C59"
   ],
   "note": "For faces whose routes are in the RIB when the removal starts; a registration that is queued behind it adds its route later."
  },
  {
   "property": "C60",
   "status": "proved",
   "theorems": [
    "Verif.Readv.C60_when",
    "Verif.Readv.C60_what",
    "Verif.Readv.C60_nlsr"
   ],
   "note": "Only /localhost and /localhop/nfd itself count as local scope in the code; other names under /localhop are advertised."
  },
  {
   "property": "C61",
   "status": "partial",
   "theorems": [
    "Verif.Readv.C61_partial",
    "Verif.Readv.C61_add",
    "Verif.Readv.C61_remove",
    "Verif.Readv.C61_delays",
    "Verif.Readv.C61_backoff",
    "Verif.Readv.C61_late_answer_violation",
    "Verif.Readv.C61_readded_violation",
    "Verif.Readv.C61_readded_then_removed_violation",
    "Verif.Readv.C61_refresh_violation",
    "Verif.Readv.C61_retry_violation",
    "Verif.Readv.C61_unavailable_violation",
    "Verif.Readv.C61_disabled_violation"
   ],
   "note": "Proved for histories in which commands about a prefix do not overlap a change of what is wanted; otherwise erased records are used or assertions fail (six counterexamples)."
  },
  {
   "property": "C62",
   "status": "partial",
   "theorems": [
    "Verif.FaceCmd.C62_not_found",
    "Verif.FaceCmd.C62_invalid",
    "Verif.FaceCmd.C62_valid",
    "Verif.FaceCmd.C62_reported_mtu",
    "Verif.FaceCmd.C62_local_fields",
    "Verif.FaceCmd.C62_violated_ignored",
    "Verif.FaceCmd.C62_destroy"
   ],
   "note": "All-or-nothing, the report and local scope for all faces; that everything asked for is applied only for faces with the generic link service, on others (the null face) it is false."
  },
  {
   "property": "C63",
   "status": "proved",
   "theorems": [
    "Verif.Auth.C63_accepts",
    "Verif.Auth.C63_acceptable",
    "Verif.Auth.C63_dry_run",
    "Verif.Auth.C63_fails_closed",
    "Verif.Auth.C63_history",
    "Verif.Auth.C63_rejects"
   ],
   "note": "Verification of signatures and freshness by ndn-cxx are abstract."
  },
  {
   "property": "C64",
   "status": "partial",
   "theorems": [
    "Verif.Net.C64_subnet4",
    "Verif.Net.C64_subnet6_partial",
    "Verif.Net.C64_violated_scope",
    "Verif.Net.C64_parse",
    "Verif.Net.C64_default",
    "Verif.Net.C64_accepts",
    "Verif.Net.C64_accepts_netif",
    "Verif.Net.C64_cidr"
   ],
   "note": "Missing: the last address of an IPv6 subnet with a nonzero scope id, for which it is false. Text forms of addresses (Boost) are abstract."
  },
  {
   "property": "C65",
   "status": "proved",
   "theorems": [
    "Verif.TblCmd.C65_add",
    "Verif.TblCmd.C65_remove",
    "Verif.TblCmd.C65_faces",
    "Verif.TblCmd.C65_nonempty",
    "Verif.TblCmd.C65_list"
   ],
   "note": ""
  },
  {
   "property": "C66",
   "status": "proved",
   "theorems": [
    "Verif.Cs.C66_mgmt_erase"
   ],
   "note": ""
  },
  {
   "property": "C67",
   "status": "proved",
   "theorems": [
    "Verif.Priv.C67_drop",
    "Verif.Priv.C67_raise",
    "Verif.Priv.C67_elevated",
    "Verif.Priv.C67_elevated_only",
    "Verif.Priv.C67_initialize",
    "Verif.Priv.C67_half_raised"
   ],
   "note": "On an error half-way the user may already be the privileged one; the error ends the program."
  },
  {
   "property": "C68",
   "status": "proved",
   "theorems": [
    "Verif.Cs.C68_switches"
   ],
   "note": ""
  },
  {
   "property": "C69",
   "status": "partial",
   "theorems": [
    "Verif.Tb.C69_size_partial",
    "Verif.Tb.C69_size_wrong"
   ],
   "note": "Violated by erase(prefix) on a name-tree node without FIB entry; proved for histories that erase existing entries only."
  },
  {
   "property": "C70",
   "status": "partial",
   "theorems": [
    "Verif.Tb.C70_no_useless_node_partial",
    "Verif.Tb.C70_useless_node"
   ],
   "note": "Violated by Fib::removeNextHop of the last nexthop; proved for histories without it."
  },
  {
   "property": "C71",
   "status": "proved",
   "theorems": [
    "Verif.Tb.C71_contracts_suffice"
   ],
   "note": ""
  },
  {
   "property": "C72",
   "status": "proved",
   "theorems": [
    "Verif.Fw.C72_hit"
   ],
   "note": ""
  },
  {
   "property": "C73",
   "status": "proved",
   "theorems": [
    "Verif.Fw.C73_no_fault",
    "Verif.Fw.C73_dishonest"
   ],
   "note": ""
  },
  {
   "property": "C74",
   "status": "proved",
   "theorems": [
    "Verif.Fw.C74_counters",
    "Verif.Fw.C74_received",
    "Verif.Fw.C74_unsolicited",
    "Verif.Fw.C74_cache"
   ],
   "note": ""
  },
  {
   "property": "C75",
   "status": "proved",
   "theorems": [
    "Verif.Strat.C75_on_its_way"
   ],
   "note": ""
  },
  {
   "property": "C76",
   "status": "proved",
   "theorems": [
    "Verif.Strat.C76_scope",
    "Verif.Strat.C76_localhost",
    "Verif.Strat.C76_localhop",
    "Verif.Strat.C76_default",
    "Verif.Strat.C76_plain",
    "Verif.Strat.C76_basic",
    "Verif.Strat.C76_honest",
    "Verif.Strat.C76_no_fault",
    "Verif.Strat.C76_selfLearning_discards",
    "Verif.Strat.C76_selfLearning_asserts"
   ],
   "note": "Self-learning is excluded from the statements about Data and assertions; the two witnesses show why."
  },
  {
   "property": "C77",
   "status": "proved",
   "theorems": [
    "Verif.Strat.C77_timed_out",
    "Verif.Strat.C77_fires"
   ],
   "note": ""
  },
  {
   "property": "C78",
   "status": "proved",
   "theorems": [
    "Verif.Strat.C78_by_name",
    "Verif.Strat.C78_by_hint",
    "Verif.Strat.C78_region_changed"
   ],
   "note": "C78_region_changed: the assertion fails if a region that matches the hint is configured while the Interest is pending; the positive statement assumes it is not."
  },
  {
   "property": "C79",
   "status": "proved",
   "theorems": [
    "Verif.Tp.C79_backoff",
    "Verif.Tp.C79_retries",
    "Verif.Tp.C79_error"
   ],
   "note": ""
  },
  {
   "property": "C80",
   "status": "partial",
   "theorems": [
    "Verif.Tp.C80_faults_partial",
    "Verif.Tp.C80_single_partial",
    "Verif.Tp.C80_assertion",
    "Verif.Tp.C80_exception"
   ],
   "note": "The property is false of the code: C80_assertion and C80_exception are executions that end the process. The partial theorems say that these are the only two ways, characterise the situation, and exclude it if reads and writes never complete together."
  },
  {
   "property": "C81",
   "status": "partial",
   "theorems": [
    "Verif.Dg.C81_safe",
    "Verif.Dg.C81_path",
    "Verif.Dg.C81_delivery",
    "Verif.Dg.C81_send",
    "Verif.Dg.C81_receiving",
    "Verif.Dg.C81_idle",
    "Verif.Dg.C81_expiration",
    "Verif.Dg.C81_lifetime",
    "Verif.Dg.C81_cause",
    "Verif.Dg.C81_closes",
    "Verif.Dg.C81_truncation"
   ],
   "note": "Everything is proved for datagrams of up to 8800 octets, and for longer ones about their first 8800 octets; C81_truncation shows that a longer datagram which is not one TLV element may be delivered cut off."
  },
  {
   "property": "C82",
   "status": "partial",
   "theorems": [
    "Verif.Dg.C82_one_face",
    "Verif.Dg.C82_connect",
    "Verif.Dg.C82_answered",
    "Verif.Dg.C82_dispatch",
    "Verif.Dg.C82_peer",
    "Verif.Dg.C82_listening_partial",
    "Verif.Dg.C82_deaf",
    "Verif.Dg.C82_deaf_witness",
    "Verif.Dg.C82_dying"
   ],
   "note": "C82_listening_partial: as long as the operating system refuses nothing. C82_deaf and C82_deaf_witness: after one refusal the channel never accepts a new peer again. C82_dying: a request may be answered with a face that is CLOSING."
  },
  {
   "property": "C83",
   "status": "proved",
   "theorems": [
    "Verif.Strat.C83_parameters",
    "Verif.Strat.C83_create",
    "Verif.Strat.C83_params_of_name",
    "Verif.Strat.C83_registered"
   ],
   "note": "Conversion of parameter values to numbers (boost::lexical_cast) is an arbitrary predicate of the constructor."
  },
  {
   "property": "C84",
   "status": "proved",
   "theorems": [
    "Verif.Rib.C84_routes",
    "Verif.Rib.C84_accepted"
   ],
   "note": "One update at a time; C58_routes_partial for the queue."
  },
  {
   "property": "C85",
   "status": "proved",
   "theorems": [
    "Verif.FaceCmd.C85_query"
   ],
   "note": ""
  },
  {
   "property": "C86",
   "status": "proved",
   "theorems": [
    "Verif.TblCmd.C86_set",
    "Verif.TblCmd.C86_unset",
    "Verif.TblCmd.C86_list"
   ],
   "note": ""
  },
  {
   "property": "C87",
   "status": "partial",
   "theorems": [
    "Verif.Readv.C87_partial",
    "Verif.Readv.C87_only",
    "Verif.Readv.C87_violation"
   ],
   "note": "Proved when there is never more than one RIB entry for a prefix of the command prefix; otherwise false."
  },
  {
   "property": "C88",
   "status": "partial",
   "theorems": [
    "Verif.RibMgr.C88_expired",
    "Verif.RibMgr.C88_only",
    "Verif.RibMgr.C88_not_early_partial",
    "Verif.RibMgr.C88_violation"
   ],
   "note": "No route stays beyond its time, in all histories. That none goes before its time is proved when no registration of the route is waiting as its expiration event runs; otherwise false."
  },
  {
   "property": "C89",
   "status": "partial",
   "theorems": [
    "Verif.RibMgr.C89_bound",
    "Verif.RibMgr.C89_announce",
    "Verif.RibMgr.C89_learn",
    "Verif.RibMgr.C89_renew_partial",
    "Verif.RibMgr.C89_renew_hidden",
    "Verif.RibMgr.C89_once",
    "Verif.RibMgr.C89_told",
    "Verif.RibMgr.C89_invalid",
    "Verif.RibMgr.C89_find"
   ],
   "note": "Missing: renewing the route of a shorter name, which fails if another entry is nearer. Validation of announcements by ndn-cxx is an arbitrary verdict."
  },
  {
   "property": "C90",
   "status": "partial",
   "theorems": [
    "Verif.RibMgr.C90_register",
    "Verif.RibMgr.C90_unregister",
    "Verif.RibMgr.C90_long",
    "Verif.RibMgr.C90_answered",
    "Verif.RibMgr.C90_list",
    "Verif.RibMgr.C90_running_partial",
    "Verif.RibMgr.C90_violation",
    "Verif.RibMgr.C90_faces"
   ],
   "note": "That the daemon keeps running is proved if announcements to the self-learning strategy have at most 32 components; otherwise false."
  },
  {
   "property": "C91",
   "status": "proved",
   "theorems": [
    "Verif.Lp.C91_ack",
    "Verif.Lp.C91_ack_only",
    "Verif.Lp.C91_unknown",
    "Verif.Lp.C91_other"
   ],
   "note": "Stated for each Ack, in all reachable states. What happens to a lost fragment is C47."
  },
  {
   "property": "C92",
   "status": "partial",
   "theorems": [
    "Verif.Ch.C92_one_face",
    "Verif.Ch.C92_transports",
    "Verif.Ch.C92_requests",
    "Verif.Ch.C92_answers_partial",
    "Verif.Ch.C92_once_partial",
    "Verif.Ch.C92_twice",
    "Verif.Ch.C92_created_once",
    "Verif.Ch.C92_timely",
    "Verif.Ch.C92_not_early",
    "Verif.Ch.C92_endpoint",
    "Verif.Ch.C92_connect",
    "Verif.Ch.C92_connected",
    "Verif.Ch.C92_refused"
   ],
   "note": "C92_answers_partial: one answer, or two failures of which the first one is the timeout; C92_once_partial: at most one answer if completion handlers run as soon as the attempt completes. C92_twice: the code may answer twice, and loses an established connection then."
  },
  {
   "property": "C93",
   "status": "partial",
   "theorems": [
    "Verif.Ch.C93_accept",
    "Verif.Ch.C93_endpoint",
    "Verif.Ch.C93_listening_partial",
    "Verif.Ch.C93_deaf",
    "Verif.Ch.C93_deaf_witness",
    "Verif.Ch.C93_safe_partial",
    "Verif.Ch.C93_crash"
   ],
   "note": "C93_listening_partial: as long as accepting does not fail. C93_deaf: after one failure the channel never creates a face for a peer again. C93_safe_partial: if no connection is reset while its face is created and TRACE messages are not logged; C93_crash: otherwise an exception escapes."
  },
  {
   "property": "C94",
   "status": "partial",
   "theorems": [
    "Verif.Ch.Unix.C94_reached_partial",
    "Verif.Ch.Unix.C94_in_use",
    "Verif.Ch.Unix.C94_listen",
    "Verif.Ch.Unix.C94_no_overwrite",
    "Verif.Ch.Unix.C94_race",
    "Verif.Ch.Unix.C94_external",
    "Verif.Ch.Unix.C94_size",
    "Verif.Ch.Unix.C94_deaf",
    "Verif.Ch.Unix.C94_deaf_witness"
   ],
   "note": "C94_reached_partial: if no two processes are in listen at once and nobody else touches the path. C94_race, C94_external: otherwise a listening process may become unreachable. C94_deaf: after one failed accept the channel never creates a face again."
  },
  {
   "property": "C95",
   "status": "partial",
   "theorems": [
    "Verif.Cf.C95_dry_run_partial",
    "Verif.Cf.C95_identity"
   ],
   "note": "C95_dry_run_partial: everything but the identity to be assumed later (section general) and the face system. C95_identity: a dry run changes that identity."
  },
  {
   "property": "C96",
   "status": "proved",
   "theorems": [
    "Verif.Cf.C96_safe",
    "Verif.Cf.C96_tables",
    "Verif.Cf.C96_forwarder",
    "Verif.Cf.C96_authorizations",
    "Verif.Cf.C96_absent",
    "Verif.Cf.C96_start_up",
    "Verif.Cf.C96_reload",
    "Verif.Cf.C96_general",
    "Verif.Cf.C96_faces_only"
   ],
   "note": "Sections occur at most once in C96_tables, C96_forwarder, C96_authorizations and C96_start_up."
  },
  {
   "property": "C97",
   "status": "partial",
   "theorems": [
    "Verif.Cf.C97_first_error",
    "Verif.Cf.C97_tables",
    "Verif.Cf.C97_refused",
    "Verif.Cf.C97_no_error_hidden",
    "Verif.Cf.C97_check_partial",
    "Verif.Cf.C97_half_way"
   ],
   "note": "C97_check_partial: all mistakes but too long prefixes, strategies that reject their parameters, malformed region names, and failures in the face system. C97_half_way: with such a mistake a file passes the dry run and fails half-way."
  },
  {
   "property": "C98",
   "status": "partial",
   "theorems": [
    "Verif.Mc.C98_one_face",
    "Verif.Mc.C98_needed",
    "Verif.Mc.C98_off",
    "Verif.Mc.C98_stable",
    "Verif.Mc.C98_complete_partial",
    "Verif.Mc.C98_in_force",
    "Verif.Mc.C98_conflict",
    "Verif.Mc.C98_added",
    "Verif.Mc.C98_first_address",
    "Verif.Mc.C98_group_change",
    "Verif.Mc.C98_dying",
    "Verif.Mc.C98_second_family"
   ],
   "note": "C98_complete_partial: that every face called for exists needs that nothing stands in its way; C98_group_change, C98_dying and C98_second_family show that it fails otherwise."
  },
  {
   "property": "C99",
   "status": "partial",
   "theorems": [
    "Verif.Fc.C99_once",
    "Verif.Fc.C99_refused",
    "Verif.Fc.C99_answer_partial",
    "Verif.Fc.C99_ended",
    "Verif.Fc.C99_unique",
    "Verif.Fc.C99_registered_partial",
    "Verif.Fc.C99_no_abort_partial",
    "Verif.Fc.C99_abort",
    "Verif.Fc.C99_filter",
    "Verif.Fc.C99_dying",
    "Verif.Fc.C99_ether_marking"
   ],
   "note": "C99_answer_partial and C99_registered_partial exclude that the packet filter of an Ethernet channel cannot be changed (C99_filter shows what happens then). C99_no_abort_partial needs that loopback addresses count as local (C99_abort shows that NFD stops otherwise). C99_dying: 409 may describe a face that is CLOSING."
  }
 ]
}
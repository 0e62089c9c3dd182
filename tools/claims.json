{
 "C01": {
  "status": "proved",
  "theorems": [
   "Htrpc.C01_routing_sound"
  ],
  "note": "All registration tables, methods and paths."
 },
 "C02": {
  "status": "proved",
  "theorems": [
   "Htrpc.C02_exact_dispatch",
   "Htrpc.C02_dispatch_iff"
  ],
  "note": "Refinement of the trie to a list-based dispatch rule, and a declarative characterisation."
 },
 "C03": {
  "status": "proved",
  "theorems": [
   "Htrpc.C03_order_irrelevant"
  ],
  "note": ""
 },
 "C04": {
  "status": "proved",
  "theorems": [
   "Htrpc.C04_register_fails_iff",
   "Htrpc.C04_failed_register_no_effect"
  ],
  "note": ""
 },
 "C05": {
  "status": "partial",
  "theorems": [
   "Htrpc.C05_matching_reached_partial",
   "Htrpc.C05_own_handler_iff",
   "Htrpc.C05_full_fails"
  ],
  "note": "The full statement is false of the code (no backtracking); proved under the exact no-shadowing condition, and refuted without it."
 },
 "C06": {
  "status": "proved",
  "theorems": [
   "Htrpc.C06_own_path_reaches_handler",
   "Htrpc.C06_empty_entry_unreachable",
   "Htrpc.C06_escaped_const_unreachable"
  ],
  "note": "URL parsing of authorities is an arbitrary oracle; the second theorem assumes it never reports an empty segment list."
 },
 "C07": {
  "status": "proved",
  "theorems": [
   "Htrpc.C07_path_round_trip",
   "Htrpc.plain_text_harmless"
  ],
  "note": "Under the std contract LawfulFloatText for floats."
 },
 "C08": {
  "status": "partial",
  "theorems": [
   "Htrpc.C08_shape_preserved_partial",
   "Htrpc.C08_shape_iff",
   "Htrpc.C08_on_the_wire",
   "Htrpc.C08_full_fails_dots",
   "Htrpc.C08_full_fails_empty"
  ],
  "note": "False of the code for dot segments and leading empty segments (witnesses proved); proved for all other arguments, and C08_shape_iff shows that these exclusions are exactly the failures; C08_on_the_wire says so of the whole target, read by the rules of URLs; C112 says where the remaining arguments go."
 },
 "C09": {
  "status": "proved",
  "theorems": [
   "Htrpc.C09_arity",
   "Htrpc.C09_accepted_iff",
   "Htrpc.C09_not_sent"
  ],
  "note": "C09_accepted_iff covers tuples of arbitrary values, C09_arity those of plain arguments."
 },
 "C10": {
  "status": "partial",
  "theorems": [
   "Htrpc.C10_received_partial",
   "Htrpc.C10_full_fails"
  ],
  "note": "The code reads percent escapes as Latin-1; the exact received text is proved, and unchanged iff ASCII without tabs and line breaks."
 },
 "C100": {
  "status": "proved",
  "theorems": [
   "Htrpc.C100_unaffected",
   "Htrpc.C100_captured",
   "Htrpc.C100_own",
   "Htrpc.C100_server"
  ],
  "note": "for all tables and all further registrations; C100_server is the same for the verdict of the server"
 },
 "C101": {
  "status": "proved",
  "theorems": [
   "Htrpc.C101_old_client",
   "Htrpc.C101_new_client",
   "Htrpc.C101_newer_server",
   "Htrpc.C101_older_server",
   "Htrpc.C101_newer_reader",
   "Htrpc.C101_older_reader",
   "Htrpc.C101_unknown_status",
   "Htrpc.C101_value_like_name"
  ],
  "note": "end to end for requests and for responses; C101_value_like_name and C101_unknown_status are the two exceptions that the statement names"
 },
 "C102": {
  "status": "proved",
  "theorems": [
   "Htrpc.C102_refused",
   "Htrpc.C102_status",
   "Htrpc.C102_head"
  ],
  "note": "Composes the refusal of the server (C37) with the reading of the client; variants of other kinds are covered by C83 and C93."
 },
 "C103": {
  "status": "proved",
  "theorems": [
   "Htrpc.C103_text",
   "Htrpc.C103_unique",
   "Htrpc.C103_f32",
   "Htrpc.C103_f32_long"
  ],
  "note": "the text of floats is std's as modelled in Model/FloatStd"
 },
 "C104": {
  "status": "proved",
  "theorems": [
   "Htrpc.C104_unread",
   "Htrpc.C104_ends",
   "Htrpc.C104_http",
   "Htrpc.C104_http_unread",
   "Htrpc.C104_http_ends"
  ],
  "note": "Over any transport, and for HTTP from the grammar of C88 (lines end with CR LF, no empty lines before a request). Hypotheses of C104_ends as in C84: all bytes arrive, fair schedule, no failures of the transport or of handlers, no target without a path. The hypotheses are met by the example junk_ends."
 },
 "C105": {
  "status": "proved",
  "theorems": [
   "Htrpc.C105_unfit",
   "Htrpc.C105_answered",
   "Htrpc.C105_unread",
   "Htrpc.C105_ends",
   "Htrpc.C105_client",
   "Htrpc.C105_as_without",
   "Htrpc.C105_served",
   "Htrpc.C105_same",
   "Htrpc.C105_world"
  ],
  "note": "Over serverWire, which is httpWire with the limits of src/server.rs:151 and meets the contract Wire. C105_client needs headers that HTTP can express (C67). C105_as_without relates every history of a connection with limits to one without, so that what is shown over httpWire of the effects of a connection (C68, C77, C88, C90, C96) carries over; C105_served does this for C68. C105_same and C105_world: if all requests fit, nothing changes at all, so C87 holds with limits. The examples show a request with a long header and a flood of bytes without an end of line."
 },
 "C106": {
  "status": "proved",
  "theorems": [
   "Htrpc.C106_splits",
   "Htrpc.C106_splits_once",
   "Htrpc.C106_whatever_arrives",
   "Htrpc.C106_ends",
   "Htrpc.C106_undelimited",
   "Htrpc.C106_undelimited_ends",
   "Htrpc.C106_cut_off"
  ],
  "note": "Splits is written from the grammar. Transfer encodings are not modelled: a head with one counts as undelimited in Splits, so the claim is about bytes without them. Targets without a path (C42) are left out in C106_ends. Hypotheses of C106_ends as in C84; examples in Props/StreamExamples: a request followed by a head with a length that is no number, a body that is cut off."
 },
 "C107": {
  "status": "proved",
  "theorems": [
   "Htrpc.C107_one",
   "Htrpc.C107_where",
   "Htrpc.C107_nth_response",
   "Htrpc.C107_early",
   "Htrpc.C107_no_response"
  ],
  "note": "ReadsOff says that what the calls read on a connection comes from the bytes on it, one after another (the reader of Model/Http, trusted base); nothing is assumed of these bytes. The example has a server that writes two responses at once."
 },
 "C108": {
  "status": "proved",
  "theorems": [
   "Htrpc.C108_path",
   "Htrpc.C108_query",
   "Htrpc.C108_headers",
   "Htrpc.C108_request"
  ],
  "note": "Equivalences: a path, query, header struct or whole request is received unchanged if and only if it belongs to an inductively described class. NaN is excluded."
 },
 "C109": {
  "status": "proved",
  "theorems": [
   "Htrpc.C109_response"
  ],
  "note": "Exactly the responses of ResponseIntact arrive as they were sent; examples of a status struct arriving, the same in a newtype variant not arriving, and of variant names."
 },
 "C11": {
  "status": "proved",
  "theorems": [
   "Htrpc.C11_path_decode_total"
  ],
  "note": ""
 },
 "C110": {
  "status": "proved",
  "theorems": [
   "Htrpc.C110_request",
   "Htrpc.C110_server",
   "Htrpc.C110_response"
  ],
  "note": "Both directions; request: path, routing, query, headers, HTTP and limits, as what the bytes mean and as what a connection does with them; response: class of C109 and HTTP."
 },
 "C111": {
  "status": "proved",
  "theorems": [
   "Htrpc.C111_called_only",
   "Htrpc.C111_called",
   "Htrpc.C111_returned"
  ],
  "note": "Only-if for every finite history and every prefix of what is sent; if-and-only-if for every fair infinite history; for responses, for every block of a log and every run of a call that hears it."
 },
 "C112": {
  "status": "proved",
  "theorems": [
   "Htrpc.C112_segments",
   "Htrpc.C112_without_breaks",
   "Htrpc.C112_same_places",
   "Htrpc.C112_left_out",
   "Htrpc.C112_other_procedure",
   "Htrpc.C112_reached",
   "Htrpc.C112_called"
  ],
  "note": "exact for all arguments; the last part consists of findings"
 },
 "C113": {
  "status": "proved",
  "theorems": [
   "Htrpc.C113_requests",
   "Htrpc.C113_on_the_wire",
   "Htrpc.C113_responses",
   "Htrpc.C113_responses_on_the_wire",
   "Htrpc.C113_confused"
  ],
  "note": "Exclusions (NaN, enums with contents, nested options, optional values in maps, dot segments, tabs and line breaks in path arguments) are hypotheses; C113_confused shows they are needed, except for NaN, whose bits no text has."
 },
 "C114": {
  "status": "proved",
  "theorems": [
   "Htrpc.C114_alive",
   "Htrpc.C114_forever",
   "Htrpc.C114_nothing_left"
  ],
  "note": "Over all executions of the pool and its calls; the only ways to end are drop and the two overflows."
 },
 "C115": {
  "status": "proved",
  "theorems": [
   "Htrpc.C115_untimed",
   "Htrpc.C115_connecting",
   "Htrpc.C115_in_time",
   "Htrpc.C115_finishes",
   "Htrpc.C115_patient"
  ],
  "note": "Spec.Began reads only the history: the time of the poll of the pool after which the call connects and the timeout set last before it. C115_connecting: there is exactly one such beginning, and what a poll without a network result does before and after the deadline. C115_in_time: polled late, a call does not go on connecting whatever the network gives. C115_untimed transfers the theorems about PoolSystem. C115_patient: no other timeout exists."
 },
 "C116": {
  "status": "proved",
  "theorems": [
   "Htrpc.C116_wider_server",
   "Htrpc.C116_wider_client",
   "Htrpc.C116_same_request",
   "Htrpc.C116_same_response",
   "Htrpc.C116_wrapped_option",
   "Htrpc.C116_wrapped_query",
   "Htrpc.C116_wrapped_header"
  ],
  "note": "Spec.Wider* relate types, Spec.Alike* relate values; neither mentions code. Alike takes what a text stands for as a parameter: what is read from it (ReadFrom) for receivers, what is written as it (SentAs) for senders. Some is added only around a value that is present. The C116_wrapped_* theorems are the exception; for queries they are about those in which no unknown parameter has a declared name as value (Tame, see C89)."
 },
 "C117": {
  "status": "proved",
  "theorems": [
   "Htrpc.C117_request_typed",
   "Htrpc.C117_response_typed",
   "Htrpc.C117_completed_typed",
   "Htrpc.C117_called_typed",
   "Htrpc.C117_simple_arrives",
   "Htrpc.C117_passed_on"
  ],
  "note": "What is read has the declared type; requests of simple types are always sent and arrive exactly if they contain no true and their path passes. Passing on is for requests without NaN."
 },
 "C118": {
  "status": "proved",
  "theorems": [
   "Htrpc.C118_passed_back",
   "Htrpc.C118_call_passed_back",
   "Htrpc.C118_not_returned"
  ],
  "note": "Responses of simple types: sent if and only if the status has a name, then with the same status, and they arrive exactly if they contain no true; without NaN. Newtype variants with a struct inside are never sent."
 },
 "C119": {
  "status": "proved",
  "theorems": [
   "Htrpc.C119_hop",
   "Htrpc.C119_growth",
   "Htrpc.C119_chain",
   "Htrpc.C119_arguments",
   "Htrpc.C119_unchanged",
   "Htrpc.C119_true_stops",
   "Htrpc.C119_true",
   "Htrpc.C119_back"
  ],
  "note": "Chains of servers and of responses are relations in Spec/Chain.lean: each step sends with any body and reads with any further headers that have other names. C119_chain and C119_back are equivalences, so that nothing else can arrive."
 },
 "C12": {
  "status": "partial",
  "theorems": [
   "Htrpc.C12_query_round_trip_partial",
   "Htrpc.C12_arrives_iff",
   "Htrpc.C12_true_field_fails"
  ],
  "note": "The full statement is false for true (C12_true_field_fails: such a struct is always rejected) and for NaN, which differs from itself. Proved for all other values; C12_arrives_iff shows that, NaN apart, these are exactly the structs that arrive. Float texts under LawfulFloatText."
 },
 "C120": {
  "status": "proved",
  "theorems": [
   "Htrpc.C120_returned",
   "Htrpc.C120_head",
   "Htrpc.C120_unknown_status",
   "Htrpc.C120_bare"
  ],
  "note": "Stated of any connection log and of any schedule of the polls of the call, over the bytes of HTTP (without the limits of the client's reader)."
 },
 "C121": {
  "status": "proved",
  "theorems": [
   "Htrpc.C121_fits",
   "Htrpc.C121_too_large",
   "Htrpc.C121_fills",
   "Htrpc.C121_waits",
   "Htrpc.C121_completed"
  ],
  "note": "For all limits; the theorems about whole systems (C87, C107) are over a client without limits."
 },
 "C122": {
  "status": "proved",
  "theorems": [
   "Htrpc.C122_read",
   "Htrpc.C122_only",
   "Htrpc.C122_one",
   "Htrpc.C122_answered",
   "Htrpc.C122_same",
   "Htrpc.C122_completes",
   "Htrpc.C122_completed",
   "Htrpc.C122_waits"
  ],
  "note": "For the decoder of Model/Chunked, which is the contract assumed of miasht; what is shown for any transport holds for this one too."
 },
 "C123": {
  "status": "proved",
  "theorems": [
   "Htrpc.C123_each_once",
   "Htrpc.C123_costs",
   "Htrpc.C123_restart",
   "Htrpc.C123_restart_quiet",
   "Htrpc.C123_served"
  ],
  "note": "For all sizes and all event sequences of the pool system. The example shows that the bound is attained for a pool of size 1."
 },
 "C124": {
  "status": "proved",
  "theorems": [
   "Htrpc.C124_moment",
   "Htrpc.C124_return",
   "Htrpc.C124_within",
   "Htrpc.C124_across",
   "Htrpc.C124_real_time",
   "Htrpc.C124_linearizable",
   "Htrpc.C124_order",
   "Htrpc.C124_program_order",
   "Htrpc.RealTimeExamples.C124_late"
  ],
  "note": "For all executions of the world of C87 without its liveness assumptions; C124_late shows that calls that were given up have to be excluded."
 },
 "C125": {
  "status": "proved",
  "theorems": [
   "Htrpc.C125_bounded",
   "Htrpc.C125_remembered",
   "Htrpc.C125_kept",
   "Htrpc.C125_grows"
  ],
  "note": "For all executions of the pool with its queue and calls; C125_remembered for all histories of the pool itself."
 },
 "C126": {
  "status": "proved",
  "theorems": [
   "Htrpc.C126_alone",
   "Htrpc.C126_independent",
   "Htrpc.C126_plain"
  ],
  "note": "For all states and executions of the pool with its calls, reachable or not in C126_alone and C126_independent."
 },
 "C127": {
  "status": "proved",
  "theorems": [
   "Htrpc.C127_same",
   "Htrpc.C127_over",
   "Htrpc.C127_cut_off",
   "Htrpc.C127_fair"
  ],
  "note": "read_body reads the whole body and is a function of the decoded request and the body, handlers are functions of what has happened on their connection. The first two and the last compare histories in which nothing fails from outside, C127_cut_off adds failures."
 },
 "C128": {
  "status": "proved",
  "theorems": [
   "Htrpc.C128_local",
   "Htrpc.C128_failures",
   "Htrpc.C128_asked"
  ],
  "note": "For honest networks and requests that HTTP can express (as in C124); the atomicity of the handlers is the hypothesis about the code of the users. Results are equal for responses of the plain shape of C29."
 },
 "C129": {
  "status": "proved",
  "theorems": [
   "Htrpc.C129_request",
   "Htrpc.C129_response",
   "Htrpc.C129_server",
   "Htrpc.C129_once",
   "Htrpc.C129_host",
   "Htrpc.C129_no_header"
  ],
  "note": "headerValues, Lines and OneField (Spec/Lines) say which lines are declared, without the serializers. That miasht writes the lines it is given and adds none is part of the trusted base (Model/Http). Values with line breaks can still smuggle lines (C67_full_fails)."
 },
 "C13": {
  "status": "proved",
  "theorems": [
   "Htrpc.C13_query_pairs",
   "Htrpc.C13_query_struct_pairs"
  ],
  "note": "Through the request target as parsed by the server, behind every path that the client can build."
 },
 "C130": {
  "status": "proved",
  "theorems": [
   "Htrpc.C130_fails",
   "Htrpc.C130_final",
   "Htrpc.C130_taken",
   "Htrpc.C130_reused",
   "Htrpc.C130_own_answer"
  ],
  "note": "Interim responses are taken for the answer; what follows for types with and without variants for them, and through pools"
 },
 "C131": {
  "status": "proved",
  "theorems": [
   "Htrpc.C131_one",
   "Htrpc.C131_where",
   "Htrpc.C131_same",
   "Htrpc.C131_waits",
   "Htrpc.C131_swallows",
   "Htrpc.C131_served",
   "Htrpc.C131_left",
   "Htrpc.C131_injected"
  ],
  "note": "by RFC 7230's rules; what client and server do without knowing them"
 },
 "C132": {
  "status": "proved",
  "theorems": [
   "Htrpc.C132_next",
   "Htrpc.C132_one_connection",
   "Htrpc.C132_idle_useless",
   "Htrpc.C132_every_second"
  ],
  "note": ""
 },
 "C133": {
  "status": "proved",
  "theorems": [
   "Htrpc.C133_standstill"
  ],
  "note": ""
 },
 "C134": {
  "status": "proved",
  "theorems": [
   "Htrpc.C134_rate",
   "Htrpc.C134_reached",
   "Htrpc.C134_quiet"
  ],
  "note": "For every execution of the pool system with a clock that does not go backwards; that the report of a failure comes before the next call follows from the order of the queue."
 },
 "C135": {
  "status": "proved",
  "theorems": [
   "Htrpc.C135_rejected",
   "Htrpc.C135_iff"
  ],
  "note": "For every execution of the pool system. The first theorem makes no assumption about the clock, the second assumes that it does not go backwards."
 },
 "C136": {
  "status": "proved",
  "theorems": [
   "Htrpc.C136_alone",
   "Htrpc.C136_rejected",
   "Htrpc.C136_displaced"
  ],
  "note": "For all histories of pool events. The first theorem assumes that no connection is closed for want of room; the third shows that this is needed for every size."
 },
 "C137": {
  "status": "proved",
  "theorems": [
   "Htrpc.C137_peak",
   "Htrpc.C137_total"
  ],
  "note": "OneScope: the addresses called on that host do not differ in scope; without it the bound is exceeded (example)."
 },
 "C138": {
  "status": "proved",
  "theorems": [
   "Htrpc.C138_life",
   "Htrpc.C138_connections"
  ],
  "note": "What a panic in one fiber does to the others is left out (as in C44)."
 },
 "C139": {
  "status": "proved",
  "theorems": [
   "Htrpc.C139_in_order"
  ],
  "note": "The queue of commands is modelled as first in, first out, as fibers' mpsc channel is (trusted base)."
 },
 "C14": {
  "status": "partial",
  "theorems": [
   "Htrpc.C14_none_omitted",
   "Htrpc.C14_absent_partial",
   "Htrpc.C14_effective_absent",
   "Htrpc.C14_full_fails"
  ],
  "note": "Sending is proved in full. Receiving is false for queries with an unknown parameter whose value is a declared name (C14_full_fails), proved for all others; C14_effective_absent covers every query in terms of the parameters as they are really read."
 },
 "C140": {
  "status": "proved",
  "theorems": [
   "Htrpc.C140_order",
   "Htrpc.C140_failed"
  ],
  "note": "Equal oracle, reason phrases and error texts are assumed, which are not modelled; they do not depend on the order of registrations."
 },
 "C141": {
  "status": "proved",
  "theorems": [
   "Htrpc.C141_no_worse",
   "Htrpc.C141_totals",
   "Htrpc.C141_scopes"
  ],
  "note": "About the commands in the order in which the pool handles them. Addresses that differ in scope only are excluded, with a counterexample."
 },
 "C142": {
  "status": "proved",
  "theorems": [
   "Htrpc.C142_in_turn",
   "Htrpc.C142_oldest_first"
  ],
  "note": "For every address, also for addresses that differ in scope only."
 },
 "C143": {
  "status": "proved",
  "theorems": [
   "Htrpc.C143_running",
   "Htrpc.C143_one_at_a_time",
   "Htrpc.C143_no_limit"
  ],
  "note": "on each connection called ≤ returned + 1; over the server called + ended ≤ returned + accepted; any number of handlers run at a time in some history"
 },
 "C144": {
  "status": "proved",
  "theorems": [
   "Htrpc.C144_mount",
   "Htrpc.C144_elsewhere",
   "Htrpc.C144_mount_registered",
   "Htrpc.C144_apart",
   "Htrpc.C144_apart_registered",
   "Htrpc.C144_server",
   "Htrpc.C144_connection"
  ],
  "note": "tables behind a prefix of any length, and services below different first segments; for a server also on all inputs of a connection"
 },
 "C145": {
  "status": "proved",
  "theorems": [
   "Htrpc.C145_anew"
  ],
  "note": "the log after a written response is the log of a new connection with the unread bytes, for every continuation"
 },
 "C146": {
  "status": "proved",
  "theorems": [
   "Htrpc.C146_pure"
  ],
  "note": "for any two executions, of the same or of different programs"
 },
 "C147": {
  "status": "proved",
  "theorems": [
   "Htrpc.C147_as_new",
   "Htrpc.C147_only"
  ],
  "note": "Drained is stated by what is observed: as many connections given out or closed as returned."
 },
 "C148": {
  "status": "proved",
  "theorems": [
   "Htrpc.C148_alike",
   "Htrpc.C148_same_clock",
   "Htrpc.C148_calls"
  ],
  "note": "The exception in C148_alike is exactly the overflow of SystemTime."
 },
 "C149": {
  "status": "proved",
  "theorems": [
   "Htrpc.C149_compared",
   "Htrpc.C149_registered",
   "Htrpc.C149_arguments"
  ],
  "note": ""
 },
 "C15": {
  "status": "partial",
  "theorems": [
   "Htrpc.C15_unknown_ignored_partial",
   "Htrpc.C15_read_exactly",
   "Htrpc.C15_full_fails",
   "Htrpc.C15_smuggling"
  ],
  "note": "False in full: the value of an unknown parameter may be taken for a name (witnesses proved). Proved when no such value is a declared name; C15_read_exactly describes the result for every query."
 },
 "C150": {
  "status": "proved",
  "theorems": [
   "Htrpc.C150_only_failures",
   "Htrpc.C150_longer",
   "Htrpc.C150_more_reports"
  ],
  "note": ""
 },
 "C151": {
  "status": "proved",
  "theorems": [
   "Htrpc.C151_balance",
   "Htrpc.C151_once",
   "Htrpc.C151_work"
  ],
  "note": "balance of commands while the pool lives, at most one closing command per call, at most two commands per call"
 },
 "C152": {
  "status": "proved",
  "theorems": [
   "Htrpc.C152_closed",
   "Htrpc.C152_kept",
   "Htrpc.C152_balance"
  ],
  "note": "bound on closed connections while the pool lives, none closed in the good case, conservation of connections at any time"
 },
 "C153": {
  "status": "proved",
  "theorems": [
   "Htrpc.C153_calls",
   "Htrpc.C153_pool",
   "Htrpc.C153_new",
   "Htrpc.C153_schedule"
  ],
  "note": "events of two calls, of a call and the pool, and of a call and a new call can be exchanged, and what this means for whole executions"
 },
 "C154": {
  "status": "proved",
  "theorems": [
   "Htrpc.C154_news",
   "Htrpc.C154_twice",
   "Htrpc.C154_spurious"
  ],
  "note": "Superfluous polls are harmless; exactly the polls that bring news from the pool change something"
 },
 "C155": {
  "status": "proved",
  "theorems": [
   "Htrpc.C155_abandoned",
   "Htrpc.C155_others"
  ],
  "note": "The execution with the drop is the one without it, with idle connections given to the call closed"
 },
 "C16": {
  "status": "proved",
  "theorems": [
   "Htrpc.C16_order_irrelevant"
  ],
  "note": ""
 },
 "C17": {
  "status": "partial",
  "theorems": [
   "Htrpc.C17_duplicate_rejected_partial",
   "Htrpc.C17_effective_duplicate",
   "Htrpc.C17_full_fails"
  ],
  "note": "False for queries with an unknown parameter whose value is a declared name (C17_full_fails: accepted, and the second value wins), proved for all others; C17_effective_duplicate covers every query in terms of the parameters as they are really read."
 },
 "C18": {
  "status": "proved",
  "theorems": [
   "Htrpc.C18_query_map_round_trip",
   "Htrpc.C18_none_lost"
  ],
  "note": "Keys count as equal if their serde values are equal; a map is the list of its entries, the order of which is unspecified in C70."
 },
 "C19": {
  "status": "proved",
  "theorems": [
   "Htrpc.C19_header_round_trip",
   "Htrpc.C19_arrives_iff"
  ],
  "note": "Header lists are transported unchanged by the HTTP library (assumed); true and NaN excluded, see C59. C19_arrives_iff: exactly these structs arrive."
 },
 "C20": {
  "status": "proved",
  "theorems": [
   "Htrpc.C20_case_insensitive"
  ],
  "note": "Every type, every header list."
 },
 "C21": {
  "status": "proved",
  "theorems": [
   "Htrpc.C21_unknown_ignored"
  ],
  "note": ""
 },
 "C22": {
  "status": "partial",
  "theorems": [
   "Htrpc.C22_request_headers_partial",
   "Htrpc.C22_response_headers_partial",
   "Htrpc.C22_no_headers_rejected"
  ],
  "note": "The full statement is false of the code for messages without any header; proved for all others."
 },
 "C23": {
  "status": "partial",
  "theorems": [
   "Htrpc.C23_in_order",
   "Htrpc.C23_only_in_order",
   "Htrpc.C23_misordered_rejected_partial",
   "Htrpc.C23_full_fails"
  ],
  "note": "C23_in_order gives the exact request for every subset of path, query, header in this order; C23_only_in_order says that nothing else is ever sent; C23_misordered_rejected_partial that everything else is Invalid unless the client panics (the panics are described exactly by C25). C23_full_fails: a misordered request on which the client panics."
 },
 "C24": {
  "status": "proved",
  "theorems": [
   "Htrpc.C24_query_needs_path",
   "Htrpc.C24_always_invalid"
  ],
  "note": "The expectation that an entry point without variables needs no path field is refuted universally."
 },
 "C25": {
  "status": "proved",
  "theorems": [
   "Htrpc.C25_panics_iff",
   "Htrpc.C25_otherwise_ok_or_invalid",
   "Htrpc.C25_path_first_never_panics",
   "Htrpc.C25_full_fails"
  ],
  "note": "Exact characterisation of the panics; C25_full_fails shows that there are some."
 },
 "C26": {
  "status": "proved",
  "theorems": [
   "Htrpc.C26_request_content_length",
   "Htrpc.C26_response_content_length",
   "Htrpc.C26_handler_told"
  ],
  "note": "Header bytes as handed to the HTTP library; for the last theorem the bytes of Model/Http, with headers that HTTP can express (SafePart, see C67)."
 },
 "C27": {
  "status": "proved",
  "theorems": [
   "Htrpc.C27_request_end_to_end"
  ],
  "note": "Supported class: Spec.PathPart, Spec.QueryPart, Spec.HeaderPart (structs in the order path, query, header; plain values; ASCII path arguments). HTTP transport of the header list and body is assumed to be the identity up to added foreign headers."
 },
 "C28": {
  "status": "proved",
  "theorems": [
   "Htrpc.C28_sent_names",
   "Htrpc.C28_received_names",
   "Htrpc.C28_one_to_one"
  ],
  "note": "Both tables of htrpc equal the table Spec.statusTable; the codes of miasht::Status are a contract."
 },
 "C29": {
  "status": "proved",
  "theorems": [
   "Htrpc.C29_response_round_trip"
  ],
  "note": "Unit variants, struct variants with an optional header, structs with an integer status, newtypes of these; also if foreign headers are added. HTTP transport of headers and body assumed."
 },
 "C30": {
  "status": "proved",
  "theorems": [
   "Htrpc.C30_variant_is_status",
   "Htrpc.C30_undeclared_invalid"
  ],
  "note": ""
 },
 "C31": {
  "status": "proved",
  "theorems": [
   "Htrpc.C31_response_sent_or_invalid",
   "Htrpc.C31_rejected",
   "Htrpc.C31_cases"
  ],
  "note": "Spec.Answers says which values stand for which status; Spec.Answers.unique that it is unique."
 },
 "C32": {
  "status": "proved",
  "theorems": [
   "Htrpc.C32_problem_received"
  ],
  "note": "Headers added by the transport other than content-type are allowed before and after."
 },
 "C33": {
  "status": "proved",
  "theorems": [
   "Htrpc.C33_never_received",
   "Htrpc.C33_received_not_sendable"
  ],
  "note": "Stated as the universal failure that the code has."
 },
 "C34": {
  "status": "proved",
  "theorems": [
   "Htrpc.C34_document_iff",
   "Htrpc.C34_any_document_iff",
   "Htrpc.C34_rendered",
   "Htrpc.C34_document_round_trip",
   "Htrpc.C34_any_order",
   "Htrpc.C34_unknown_ignored",
   "Htrpc.C34_body_round_trip"
  ],
  "note": "serde_json text codec is a contract (JsonText), shown satisfiable."
 },
 "C35": {
  "status": "proved",
  "theorems": [
   "Htrpc.C35_status_line",
   "Htrpc.C35_agree",
   "Htrpc.C35_disagree",
   "Htrpc.C35_unknown_status"
  ],
  "note": "Exact status for every history; agreement fails after set_problem with another status."
 },
 "C36": {
  "status": "proved",
  "theorems": [
   "Htrpc.C36_malformed_ignored",
   "Htrpc.C36_document_replaces"
  ],
  "note": ""
 },
 "C37": {
  "status": "proved",
  "theorems": [
   "Htrpc.C37_one_verdict",
   "Htrpc.C37_refused",
   "Htrpc.C37_served",
   "Htrpc.C37_refusal_is_answered",
   "Htrpc.C37_call_is_answered"
  ],
  "note": "Decision table as an inductive relation; every block of every history agrees with it, and complete requests are answered. Panicking (pathless) targets are C42."
 },
 "C38": {
  "status": "proved",
  "theorems": [
   "Htrpc.C38_calls",
   "Htrpc.C38_calls_when_answered",
   "Htrpc.C38_wanted_iff"
  ],
  "note": "For every history of events on a connection."
 },
 "C39": {
  "status": "proved",
  "theorems": [
   "Htrpc.C39_one_at_a_time",
   "Htrpc.C39_nth_response",
   "Htrpc.C39_one_response_each"
  ],
  "note": "For every prefix of every history."
 },
 "C40": {
  "status": "proved",
  "theorems": [
   "Htrpc.C40_head_without_body"
  ],
  "note": "For the n-th request of every history; the client side is C55."
 },
 "C41": {
  "status": "proved",
  "theorems": [
   "Htrpc.C41_nothing_after_end",
   "Htrpc.C41_end_is_last",
   "Htrpc.C41_quiet_end",
   "Htrpc.C41_failures",
   "Htrpc.C41_finished"
  ],
  "note": "For every history of events on a connection."
 },
 "C42": {
  "status": "proved",
  "theorems": [
   "Htrpc.C42_panics_iff",
   "Htrpc.C42_only_pathless_panics",
   "Htrpc.C42_slash_never_panics",
   "Htrpc.C42_pathless_target"
  ],
  "note": "Panics of user code (read_body, handlers) are not modelled; authorities and file URLs are an arbitrary oracle."
 },
 "C43": {
  "status": "proved",
  "theorems": [
   "Htrpc.C43_in_step"
  ],
  "note": "For handlers whose read_body reads exactly the body, on any byte stream that is a sequence of requests; the format of requests is the contract Wire."
 },
 "C44": {
  "status": "proved",
  "theorems": [
   "Htrpc.C44_isolated",
   "Htrpc.C44_keeps_accepting",
   "Htrpc.C44_listener_failure_ends",
   "Htrpc.C44_only_listener_ends"
  ],
  "note": "What a panic in one fiber does to others depends on the executor and is not modelled. C44_listener_failure_ends: the failure is reported with its kind, once, and nothing is accepted afterwards."
 },
 "C45": {
  "status": "proved",
  "theorems": [
   "Htrpc.C45_pool_size"
  ],
  "note": "After every history of commands that the pool survives (C54: every one with fewer than 2^64 releases)."
 },
 "C46": {
  "status": "proved",
  "theorems": [
   "Htrpc.C46_lives",
   "Htrpc.C46_one_place",
   "Htrpc.C46_closed_is_final",
   "Htrpc.C46_handover"
  ],
  "note": "for every interleaving of calls, pool, network and drops"
 },
 "C47": {
  "status": "proved",
  "theorems": [
   "Htrpc.C47_own_address",
   "Htrpc.C47_one_peer"
  ],
  "note": ""
 },
 "C48": {
  "status": "proved",
  "theorems": [
   "Htrpc.C48_reused",
   "Htrpc.C48_opened",
   "Htrpc.C48_blocked_by_scope",
   "Htrpc.C48_reused_unscoped"
  ],
  "note": "Exact: includes the case (IPv6 addresses differing only in scope) where an idle connection is not reused. Fewer than 2^64 releases."
 },
 "C49": {
  "status": "proved",
  "theorems": [
   "Htrpc.C49_eviction"
  ],
  "note": "Closes exactly the connection released longest ago, and only when the pool is full. Fewer than 2^64 releases."
 },
 "C50": {
  "status": "partial",
  "theorems": [
   "Htrpc.C50_suspended_iff_partial",
   "Htrpc.C50_any_clock",
   "Htrpc.C50_failed_uses_nothing",
   "Htrpc.C50_full_fails"
  ],
  "note": "C50_suspended_iff_partial: for every clock that does not go backwards (the code uses SystemTime). C50_full_fails: for clocks that go backwards the statement is false, since an acquisition behind the end of the suspension ends it for good. C50_any_clock: exactly what holds for every clock. Fewer than 2^64 releases."
 },
 "C51": {
  "status": "proved",
  "theorems": [
   "Htrpc.C51_reports_at_most",
   "Htrpc.C51_reports_all",
   "Htrpc.C51_suspended_failed",
   "Htrpc.C51_one_attempt",
   "Htrpc.C51_rejected"
  ],
  "note": ""
 },
 "C52": {
  "status": "proved",
  "theorems": [
   "Htrpc.C52_completed",
   "Htrpc.C52_not_completed",
   "Htrpc.C52_given_up"
  ],
  "note": ""
 },
 "C53": {
  "status": "proved",
  "theorems": [
   "Htrpc.C53_orphan_fails",
   "Htrpc.C53_late_call_fails",
   "Htrpc.C53_dropped_stays",
   "Htrpc.C53_answered"
  ],
  "note": ""
 },
 "C54": {
  "status": "proved",
  "theorems": [
   "Htrpc.C54_pool_never_panics",
   "Htrpc.C54_exactly"
  ],
  "note": "Refinement of a queue of idle connections; the sequence number overflows at release number 2^64, where arithmetic is checked, and nothing else panics."
 },
 "C55": {
  "status": "proved",
  "theorems": [
   "Htrpc.C55_phases",
   "Htrpc.C55_ready",
   "Htrpc.C55_failed",
   "Htrpc.C55_panicked",
   "Htrpc.C55_failure_ends",
   "Htrpc.C55_completes"
  ],
  "note": "for every sequence of poll results, including NotReady"
 },
 "C56": {
  "status": "proved",
  "theorems": [
   "Htrpc.C56_json_in_query",
   "Htrpc.C56_json_in_header",
   "Htrpc.C56_json_in_request"
  ],
  "note": "For every codec with the law JsonRecovers (serdeconv is not modelled); headers as far as the transport carries their bytes."
 },
 "C57": {
  "status": "proved",
  "theorems": [
   "Htrpc.C57_msgpack_rejected",
   "Htrpc.C57_msgpack_rejected_in_path",
   "Htrpc.C57_msgpack_never_received"
  ],
  "note": "For every codec."
 },
 "C58": {
  "status": "proved",
  "theorems": [
   "Htrpc.C58_request",
   "Htrpc.C58_response"
  ],
  "note": "decoding any target/headers with any type never panics; errors are Invalid"
 },
 "C59": {
  "status": "proved",
  "theorems": [
   "Htrpc.C59_true_lost",
   "Htrpc.C59_false_arrives",
   "Htrpc.C64_path_lost",
   "Htrpc.C64_query_lost",
   "Htrpc.C64_header_lost",
   "Htrpc.C59_false_in_path",
   "Htrpc.C59_false_in_query",
   "Htrpc.C59_false_in_header"
  ],
  "note": "C59_true_lost and C59_false_arrives for a boolean alone; among arbitrary other values true is lost by C64_*, and C59_false_in_* say that whoever accepts the message has false at its place. Restated as a true fact; that booleans survive is false."
 },
 "C60": {
  "status": "partial",
  "theorems": [
   "Htrpc.C60_integers_arrive",
   "Htrpc.C60_integer_range",
   "Htrpc.C60_integer_texts",
   "Htrpc.C60_path_rejects",
   "Htrpc.C60_query_rejects_partial",
   "Htrpc.C60_query_effective",
   "Htrpc.C60_full_fails",
   "Htrpc.C60_header_rejects"
  ],
  "note": "Proved for paths, headers and sending. For queries with an unknown parameter whose value is a declared name, a text out of range may go unnoticed (C60_full_fails); proved for all other queries."
 },
 "C61": {
  "status": "proved",
  "theorems": [
   "Htrpc.C61_order_irrelevant"
  ],
  "note": ""
 },
 "C62": {
  "status": "proved",
  "theorems": [
   "Htrpc.C62_duplicate_rejected"
  ],
  "note": ""
 },
 "C63": {
  "status": "proved",
  "theorems": [
   "Htrpc.C63_path_read",
   "Htrpc.C63_path_read_exactly",
   "Htrpc.C63_surplus_ignored",
   "Htrpc.C63_missing_rejected"
  ],
  "note": ""
 },
 "C64": {
  "status": "proved",
  "theorems": [
   "Htrpc.C64_path_lost",
   "Htrpc.C64_path_rejected",
   "Htrpc.C64_query_lost",
   "Htrpc.C64_header_lost"
  ],
  "note": "Every entry point and every neighbours, also if these change the shape of the path: then the path does not match, or decoding fails."
 },
 "C65": {
  "status": "proved",
  "theorems": [
   "Htrpc.C65_served",
   "Htrpc.C65_round_trip"
  ],
  "note": "Composition of C02, C27, C29, C37, C39, C43 and C55; handlers read exactly their body (ReadsWhole), the transport is the contract Wire."
 },
 "C66": {
  "status": "proved",
  "theorems": [
   "Htrpc.C66_target_safe",
   "Htrpc.C66_request_line"
  ],
  "note": "Every request that is sent, not only the supported class."
 },
 "C67": {
  "status": "partial",
  "theorems": [
   "Htrpc.C67_request_arrives_partial",
   "Htrpc.C67_response_arrives_partial",
   "Htrpc.C67_request_iff",
   "Htrpc.C67_response_iff",
   "Htrpc.C67_safe_request",
   "Htrpc.C67_safe_response",
   "Htrpc.C67_full_fails"
  ],
  "note": "The full statement is false: header texts are written without any check, so line breaks in them end the head (request smuggling, C67_full_fails, for a transport that writes headers as they are given). Proved for header texts without control characters and without surrounding blanks, and names that are tokens; C67_request_iff and C67_response_iff show that these are exactly the headers that arrive."
 },
 "C68": {
  "status": "proved",
  "theorems": [
   "Htrpc.C68_served",
   "Htrpc.C68_round_trip"
  ],
  "note": "C65 with the HTTP/1.1 reader and writer of Model/Http in place of the contract."
 },
 "C69": {
  "status": "proved",
  "theorems": [
   "Htrpc.C69_query",
   "Htrpc.C69_headers",
   "Htrpc.C69_path",
   "Htrpc.C69_single_dropped"
  ],
  "note": "For every value of the data model. The pairs of a query are those that the server's parser finds in it."
 },
 "C70": {
  "status": "proved",
  "theorems": [
   "Htrpc.C70_query_map_read",
   "Htrpc.C70_header_map_read",
   "Htrpc.C70_query_last_wins"
  ],
  "note": "MapOf: distinct keys, each with the value of its last occurrence."
 },
 "C71": {
  "status": "proved",
  "theorems": [
   "Htrpc.C71_header_map_arrives",
   "Htrpc.C71_foreign_rejected"
  ],
  "note": "Names of received headers are ASCII."
 },
 "C72": {
  "status": "proved",
  "theorems": [
   "Htrpc.C72_query"
  ],
  "note": "Any value of any type: what an accepting receiver of the type gets is related to what was sent by QueryArrives (Spec/Integrity)."
 },
 "C73": {
  "status": "proved",
  "theorems": [
   "Htrpc.C73_headers",
   "Htrpc.C73_header_map",
   "Htrpc.C73_single_text"
  ],
  "note": "Structs with names distinct up to case, maps with text keys, single texts."
 },
 "C74": {
  "status": "proved",
  "theorems": [
   "Htrpc.C74_path",
   "Htrpc.C74_unit_lost"
  ],
  "note": "Any entry point and value, any query text behind the path."
 },
 "C75": {
  "status": "proved",
  "theorems": [
   "Htrpc.C75_request",
   "Htrpc.C75_content_length"
  ],
  "note": "Headers are structs (also in newtypes and options) without a field content-length; the exception is C75_content_length."
 },
 "C76": {
  "status": "proved",
  "theorems": [
   "Htrpc.C76_response",
   "Htrpc.C76_misnamed"
  ],
  "note": "Newtype variants must have the name of the status; C76_misnamed shows why."
 },
 "C77": {
  "status": "proved",
  "theorems": [
   "Htrpc.C77_requests",
   "Htrpc.C77_responses"
  ],
  "note": "Any struct requests whose header types have distinct names; headers must be expressible in HTTP and not redefine the framing (otherwise C67_full_fails). Losses are exactly those of C72-C76."
 },
 "C78": {
  "status": "proved",
  "theorems": [
   "Htrpc.C78_in_turn",
   "Htrpc.C78_idle",
   "Htrpc.C78_own_request",
   "Htrpc.C78_own_response"
  ],
  "note": "all executions of the pool system of C46, by an invariant on what has gone over each connection"
 },
 "C79": {
  "status": "proved",
  "theorems": [
   "Htrpc.C79_own_answer"
  ],
  "note": "joins C78 on the side of the clients with C77 on the side of the servers; the bytes in between may arrive in any pieces, or in part"
 },
 "C80": {
  "status": "proved",
  "theorems": [
   "Htrpc.C80_finishes",
   "Htrpc.C80_succeeds"
  ],
  "note": "The clock and the network are events; that a result eventually arrives (fairness of network and executor) is assumed, not proved: the theorems say how many results suffice."
 },
 "C81": {
  "status": "proved",
  "theorems": [
   "Htrpc.C81_recovered",
   "Htrpc.C81_header_iff",
   "Htrpc.C81_request_iff"
  ],
  "note": "For the JSON texts of Model/JsonText (serde_json is not part of /repo) and the transport Model/Http. What a Serialize implementation makes of a value is a parameter (Documents)."
 },
 "C82": {
  "status": "proved",
  "theorems": [
   "Htrpc.C82_request_read",
   "Htrpc.C82_request_iff",
   "Htrpc.C82_verdict",
   "Htrpc.C82_called"
  ],
  "note": "Request types in which no struct has two fields of the same name (serde derive cannot produce others); names of headers are ASCII. C82_request_read: the value is one the rules allow, or there is none and the error is Invalid; C82_request_iff: for types without maps (where the order of entries is left open) it is exactly the value of the rules."
 },
 "C83": {
  "status": "proved",
  "theorems": [
   "Htrpc.C83_response_read",
   "Htrpc.C83_response_iff",
   "Htrpc.C83_completed"
  ],
  "note": "As for C82, for every status code and all headers."
 },
 "C84": {
  "status": "proved",
  "theorems": [
   "Htrpc.C84_never_stuck",
   "Htrpc.C84_whatever_follows",
   "Htrpc.C84_all_answered"
  ],
  "note": "liveness over infinite fair executions; Smooth says that nothing fails from outside, ReadsWhole that read_body of the user reads exactly the body; C84_whatever_follows asks nothing of the bytes after the requests; the example gives an execution with a request that is served and one that is refused"
 },
 "C85": {
  "status": "proved",
  "theorems": [
   "Htrpc.C85_target",
   "Htrpc.C85_every_target",
   "Htrpc.C85_verdict",
   "Htrpc.C85_verdict_iff",
   "Htrpc.C85_called"
  ],
  "note": "Targets that begin with exactly one slash and have no characters up to U+0020; other targets are given to the URL parser's other rules, see C42."
 },
 "C86": {
  "status": "proved",
  "theorems": [
   "Htrpc.C86_no_dot_segments",
   "Htrpc.C86_no_dot_arguments"
  ],
  "note": "For requests declared as structs or newtypes of them; the same targets as C85."
 },
 "C87": {
  "status": "proved",
  "theorems": [
   "Htrpc.C87_ends",
   "Htrpc.C87_answered",
   "Htrpc.C87_round_trip"
  ],
  "note": "Fairness: the pool handles commands, a call that is offered a result is polled with it or is not offered one any more, and a server connection gets what it waits for or does not wait any more. Delivery: a request that was written completely arrives completely some time; the link between the ends is the one of C79 at every time. C87_round_trip: 'supported class' as in C27 and C29. Non-vacuous: WorldExamples builds such a world and applies the theorems."
 },
 "C88": {
  "status": "proved",
  "theorems": [
   "Htrpc.C88_read",
   "Htrpc.C88_only",
   "Htrpc.C88_answered",
   "Htrpc.C88_responses"
  ],
  "note": "The grammar is RequestText in Spec/Interop, written without the reader. The reader is Model/Http, the model of the library miasht/httparse below htrpc (trusted base); chunked bodies are left out. C88_only says that what is read is in the grammar and used up; it needs the law that a method name is read only from its own bytes. Decided and TargetOf are the relations of C85."
 },
 "C89": {
  "status": "proved",
  "theorems": [
   "Htrpc.C89_arguments",
   "Htrpc.C89_parameters",
   "Htrpc.C89_values",
   "Htrpc.C89_path",
   "Htrpc.C89_query_effective",
   "Htrpc.C89_query",
   "Htrpc.C89_headers"
  ],
  "note": "Texts of floats are those of the parameter FloatText (Rust's std). For queries with an unknown parameter whose value is a declared name the parameters are those that are really read (effective, see C15). %+ followed by one hexadecimal digit is accepted as an escape too (Segment, codeOf)."
 },
 "C90": {
  "status": "proved",
  "theorems": [
   "Htrpc.C90_at_most_once",
   "Htrpc.C90_one_request",
   "Htrpc.C90_addressed"
  ],
  "note": "the link between client and server (what arrives is a prefix of what was sent) and the body readers are those of C77-C79"
 },
 "C91": {
  "status": "proved",
  "theorems": [
   "Htrpc.C91_texts",
   "Htrpc.C91_unambiguous",
   "Htrpc.C91_written",
   "Htrpc.C91_query",
   "Htrpc.C91_headers",
   "Htrpc.C91_problem"
  ],
  "note": "the reader is that of the concrete codec (a model of serde_json); the values of fractions and exponents are left to the contract of floats; queries as in C89_query"
 },
 "C92": {
  "status": "proved",
  "theorems": [
   "Htrpc.C92_scheme",
   "Htrpc.C92_every_target",
   "Htrpc.C92_read_as",
   "Htrpc.C92_target",
   "Htrpc.C92_means",
   "Htrpc.C92_verdict",
   "Htrpc.C92_verdict_iff",
   "Htrpc.C92_host",
   "Htrpc.C92_panics_iff",
   "Htrpc.C92_panics",
   "Htrpc.C92_url"
  ],
  "note": "Four forms that exclude each other and cover every text (C92_every_target); C92_verdict_iff is for types without maps, C92_verdict for all. For targets of visible characters, which is what the HTTP decoder hands over. Hosts and file: are left to the oracle, so the claims that exclude the form host say nothing about them."
 },
 "C93": {
  "status": "proved",
  "theorems": [
   "Htrpc.C93_sent",
   "Htrpc.C93_read",
   "Htrpc.C93_only",
   "Htrpc.C93_completes",
   "Htrpc.C93_completed",
   "Htrpc.C93_waits"
  ],
  "note": "The reader is Model/Http, the model of the library below htrpc (trusted base); chunked bodies are left out, and a response without Content-Length is taken to have no body. C93_sent is under the exact conditions of C67."
 },
 "C94": {
  "status": "proved",
  "theorems": [
   "Htrpc.C94_sent_target",
   "Htrpc.C94_unique"
  ],
  "note": "For every request that the client accepts. Which requests those are is C69 and C23; for segments that a URL cannot carry see C08."
 },
 "C95": {
  "status": "proved",
  "theorems": [
   "Htrpc.C95_done",
   "Htrpc.C95_invalid",
   "Htrpc.C95_other",
   "Htrpc.C95_panicked",
   "Htrpc.C95_kind"
  ],
  "note": "The calls are those of the model of the pool (Sys), under every schedule of events. A result 'failed' of the network stands for every error of the transport library, including a response that it cannot parse; all of these become Other (src/error.rs:15-30, 61-65). 'Complete response' means head and body, and only the head for HEAD requests, whose responses have no body. What the server has done with a request that was not answered is not claimed: it may or may not have been handled."
 },
 "C96": {
  "status": "proved",
  "theorems": [
   "Htrpc.C96_read_once",
   "Htrpc.C96_bounded",
   "Htrpc.C96_unread",
   "Htrpc.C96_early",
   "Htrpc.Http.cutWire"
  ],
  "note": "The invariant has no hypothesis on the peer or on the code of users; of the transport it uses CutWire, which Http.cutWire proves for HTTP/1.1 messages as modelled (no chunked bodies). That a body reader hands back the bytes it has not read (into_inner, server.rs:86) is part of the contract of miasht; C96_unread and C96_early rest on it."
 },
 "C97": {
  "status": "proved",
  "theorems": [
   "Htrpc.C97_open_connections",
   "Htrpc.C97_no_leak"
  ],
  "note": "For the calls made through one pool (Sys); a connection counts as open from the moment the transport has established it until it is dropped. Connection attempts under way are not counted: there is at most one for each call in progress."
 },
 "C98": {
  "status": "proved",
  "theorems": [
   "Htrpc.C98_f64",
   "Htrpc.C98_f32",
   "Htrpc.C98_nan",
   "Htrpc.C98_text",
   "Htrpc.C98_f32_text",
   "Htrpc.C98_contract"
  ],
  "note": "For the concrete text of floats of Model/FloatStd (std's Display and FromStr as documented). C98_contract: that text meets the contract LawfulFloatText which the other theorems assume."
 },
 "C99": {
  "status": "proved",
  "theorems": [
   "Htrpc.C99_f64",
   "Htrpc.C99_f32",
   "Htrpc.C99_status"
  ],
  "note": "Both directions; the specification is over the rationals and names no algorithm."
 }
}
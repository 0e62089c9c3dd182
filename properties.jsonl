{"id": "C01", "title": "Routing soundness", "statement": "A request is handed to a registered handler only if that handler was registered for the request's HTTP method and its entry point has exactly as many segments as the URL path and every constant segment of the entry point equals the path segment at the same position.", "quantifier": "every sequence of registrations, every method, every list of path segments", "why_tests_cant": "the set of registration tables and paths is infinite; a unit test checks a few tables", "anchors": ["src/router.rs: Router::route, Trie::insert, TrieNode::get_child, TrieNode::get_value", "src/procedure.rs: EntryPoint, PathSegment"]}
{"id": "C02", "title": "Exact dispatch rule (constant first, no backtracking, 404 versus 405)", "statement": "For every registration table the outcome of a request is exactly: walk the path left to right keeping the registered entry points that agree so far, at each segment keep those with that constant if there is one and otherwise those with a variable; if none is left answer 404; at the end call the handler registered for precisely that entry point and the method, and answer 405 if there is none.", "quantifier": "every sequence of registrations, every method, every list of path segments", "why_tests_cant": "needs agreement with an independent specification on all tables and all paths", "anchors": ["src/router.rs: Router::route, TrieNode::get_child"]}
{"id": "C03", "title": "Registration order is irrelevant", "statement": "Two servers on which the same procedures were successfully registered in different orders answer every request in the same way.", "quantifier": "every permutation of every conflict-free registration sequence, every request", "why_tests_cant": "factorially many orders of unboundedly long sequences", "anchors": ["src/router.rs: RouterBuilder::register_handler, Trie::insert, Router::route"]}
{"id": "C04", "title": "Duplicate registration is rejected without side effect", "statement": "Registering a (method, entry point) pair fails exactly when that pair is already registered, and a failed registration changes the routing of no request.", "quantifier": "every sequence of registrations, every request afterwards", "why_tests_cant": "quantifies over all histories of registrations and all later requests", "anchors": ["src/router.rs: Trie::insert", "src/server.rs: RpcServerBuilder::register"]}
{"id": "C05", "title": "Every request whose path matches a registered entry point reaches a handler for it", "statement": "If some entry point registered for the method matches the path, the request is dispatched to a handler (full statement). The code only guarantees this when no constant segment of another registration shadows a variable of the matching entry point on this path.", "quantifier": "every registration table and request", "why_tests_cant": "a counterexample needs two interacting registrations; the positive part ranges over all tables", "anchors": ["src/router.rs: Router::route, TrieNode::get_child"]}
{"id": "C06", "title": "A client's own path reaches the procedure it was built for", "statement": "The URL path which the client builds for a procedure with at least one segment, whose constants consist of characters that a URL path carries unescaped and whose variables are bound to admissible values, is dispatched by a server on which that procedure is registered to that procedure's handler, provided no other registration shadows it; the entry point without segments is never reachable; a procedure with a constant that URLs escape is never reached by the client's own path.", "quantifier": "every entry point, every tuple of admissible path values, every registration table without shadowing", "why_tests_cant": "composition of serializer, URL parser and router for all values", "anchors": ["src/serializers/url_path.rs: UrlPathSerializer", "src/misc.rs: parse_relative_url", "src/router.rs: Router::route"]}
{"id": "C07", "title": "URL path round trip", "statement": "For every entry point whose constants need no escaping and every tuple of path arguments (the boolean false, integers, floats other than NaN, strings, newtypes of these; for true see C59) whose text is ASCII and free of the values the URL library drops, decoding on the server yields the arguments the client bound.", "quantifier": "every entry point, every argument tuple of matching arity", "why_tests_cant": "infinitely many entry points and argument texts", "anchors": ["src/serializers/url_path.rs: UrlPathSerializer", "src/deserializers/url_path.rs: UrlPathDeserializer, percent_decode"]}
{"id": "C08", "title": "A path argument cannot change the shape of the path", "statement": "Whatever text is bound to the variables, the URL path sent by the client has exactly one segment per entry point segment, and the constant segments stay at their positions (full statement). False for the arguments '.' and '..' and for leading empty arguments, which vanish; proved for all others.", "quantifier": "every entry point, every tuple of strings", "why_tests_cant": "adversarial strings (slashes, percent signs, non-ASCII) form an infinite space", "anchors": ["src/serializers/url_path.rs: bind_next_var, append_until_next_var"]}
{"id": "C09", "title": "Path arity is checked before sending", "statement": "Serializing a tuple of plain arguments as a URL path succeeds exactly when the number of arguments equals the number of variables of the entry point; otherwise the call fails with Invalid and nothing is sent.", "quantifier": "every entry point, every tuple of plain arguments", "why_tests_cant": "all lengths on both sides", "anchors": ["src/serializers/url_path.rs: serialize_tuple, serialize_tuple_struct, finish", "src/procedure.rs: EntryPoint::var_count"]}
{"id": "C10", "title": "Non-ASCII path arguments arrive unchanged", "statement": "A string bound to a path variable is received unchanged (full statement). The code decodes each percent escape as one Unicode scalar value, so the server receives the UTF-8 bytes of the string read as Latin-1: unchanged exactly for ASCII strings.", "quantifier": "every string", "why_tests_cant": "the exact set of strings that survive is infinite on both sides", "anchors": ["src/deserializers/url_path.rs: percent_decode"]}
{"id": "C11", "title": "Decoding a URL path never panics and fails only with Invalid", "statement": "For every path argument type and every URL path, decoding either yields a value or an error of kind Invalid; index arithmetic, unwraps and the variable counter never panic.", "quantifier": "every argument type, entry point and list of path segments", "why_tests_cant": "all malformed inputs", "anchors": ["src/deserializers/url_path.rs: next_value, finish, next_element_seed"]}
{"id": "C12", "title": "URL query round trip", "statement": "A query struct whose fields are booleans, integers, floats, strings, newtypes or options of these is decoded on the server to the value the client serialized (full statement). Holds when no field is `true`, which the client writes as `ture`, or NaN.", "quantifier": "every struct type of this shape, every value", "why_tests_cant": "infinitely many types and values; the failing value is one of two booleans in a field of an otherwise arbitrary struct", "anchors": ["src/serializers/url_query.rs: UrlQuerySerializer", "src/deserializers/url_query.rs: UrlQueryDeserializer"]}
{"id": "C13", "title": "A query value cannot inject or hide parameters", "statement": "The key/value pairs a server reads from the query string are exactly the pairs the client wrote, in order, for arbitrary Unicode keys and values.", "quantifier": "every list of key/value strings", "why_tests_cant": "adversarial strings containing & = % + and any Unicode", "anchors": ["src/serializers/url_query.rs: append", "src/deserializers/rpc_request.rs: next_value_seed"]}
{"id": "C14", "title": "Absent options are omitted and read back as absent", "statement": "A None field of a query struct produces no parameter, and a parameter that is absent is read as None for an optional field and is an Invalid error for a required field. (Full statement. For the receiver it is false when an unknown parameter has a declared name as value, see C15.)", "quantifier": "every query struct type and value, every parameter list", "why_tests_cant": "all subsets of present parameters", "anchors": ["src/serializers/url_query.rs: serialize_none", "src/deserializers/url_query.rs: deserialize_option, next_key_seed"]}
{"id": "C15", "title": "Unknown query parameters are ignored", "statement": "Adding parameters that the query struct does not declare, at any places, does not change the decoded value (full statement). False: the value of an unknown parameter that is not last is taken for a name, so an unknown parameter whose value is the name of a declared one breaks the request or smuggles a value in; proved whenever no unknown parameter (except the last of the query) has a declared name as value.", "quantifier": "every struct type, every parameter list, every unknown parameter and position", "why_tests_cant": "requires all positions and all contents; the failure depends on the content of the unknown value", "anchors": ["src/deserializers/url_query.rs: deserialize_ignored_any, next_str"]}
{"id": "C16", "title": "Order of known query parameters is irrelevant", "statement": "Permuting a query string whose parameters are all declared does not change the decoded value.", "quantifier": "every struct type, every list of declared parameters, every permutation", "why_tests_cant": "all permutations of all lists", "anchors": ["src/deserializers/url_query.rs: UrlQueryDeserializer"]}
{"id": "C17", "title": "Repeated query parameters are rejected", "statement": "A query string that contains a declared parameter twice is rejected with Invalid; neither value silently wins. (Full statement. False when an unknown parameter has a declared name as value, see C15.)", "quantifier": "every struct type, every parameter list containing a duplicate of a declared parameter", "why_tests_cant": "all positions of the duplicates", "anchors": ["src/deserializers/url_query.rs: next_key_seed"]}
{"id": "C18", "title": "Query map round trip", "statement": "A map of plain keys to plain values used as query is decoded to the same entries (subject to C12's `true`). Entries whose value is an absent option are lost in transit: the receiver gets exactly the other entries.", "quantifier": "every map (keys are distinct)", "why_tests_cant": "all sizes and contents", "anchors": ["src/serializers/url_query.rs: SerializeMap", "src/deserializers/url_query.rs: MapAccess"]}
{"id": "C19", "title": "HTTP header round trip", "statement": "A header struct with lower case field names whose fields are integers, floats, strings, byte strings, unit structs, newtypes or options of these is decoded to the value that was serialized, for any headers the transport adds besides.", "quantifier": "every struct type of this shape, every value, every list of further headers with other names", "why_tests_cant": "infinitely many types and values", "anchors": ["src/serializers/http_header.rs", "src/deserializers/http_header.rs"]}
{"id": "C20", "title": "Header names are case-insensitive", "statement": "Changing the case of ASCII letters in the header names of a message does not change the decoded header value.", "quantifier": "every header type, every header list, every re-casing", "why_tests_cant": "exponentially many casings", "anchors": ["src/deserializers/http_header.rs: next_bytes"]}
{"id": "C21", "title": "Unknown headers are ignored at every position", "statement": "Inserting headers whose names the header struct does not declare, anywhere, does not change the decoded value.", "quantifier": "every header struct type, every header list, every set of unknown headers and positions", "why_tests_cant": "all interleavings", "anchors": ["src/deserializers/http_header.rs: deserialize_ignored_any"]}
{"id": "C22", "title": "Messages without a `header` field decode regardless of headers", "statement": "A request or response type without header field accepts every message whatever headers it carries (full statement). False for a message with no header at all, which is rejected; proved for messages with at least one header.", "quantifier": "every type without header field, every header list", "why_tests_cant": "the empty list is the boundary case", "anchors": ["src/deserializers/http_header.rs: next_bytes, deserialize_ignored_any", "src/deserializers/rpc_request.rs", "src/deserializers/rpc_response.rs"]}
{"id": "C23", "title": "Request fields must be declared in the order path, query, header", "statement": "Serializing a request struct succeeds only if its fields are a subsequence of path, query, header in this order; every other order or unknown field is an Invalid error and never a request with misplaced data.", "quantifier": "every list of request fields and values, every entry point", "why_tests_cant": "all field orders and values", "anchors": ["src/serializers/rpc_request.rs: serialize_field"]}
{"id": "C24", "title": "A request with a query needs a path field", "statement": "No request struct with a query field and without a path field is ever sent, for any entry point and any query: in declaration order it is rejected with Invalid. (What a user expects, that an entry point without variables needs no path field, is false as soon as there is a query: the serializer feeds the query value to the path serializer first.)", "quantifier": "every query value, every entry point", "why_tests_cant": "universal failure over all values", "anchors": ["src/serializers/rpc_request.rs: serialize_field"]}
{"id": "C25", "title": "When building a request panics", "statement": "Serializing a request panics exactly if the entry point has variables and the request struct (or struct variant) has no field or starts with the header, or if the request is a struct variant that starts with a header field; every other request is sent or rejected with Invalid. (What a user expects, that it never panics, is therefore false.)", "quantifier": "every request value, every entry point", "why_tests_cant": "all values of the data model", "anchors": ["src/serializers/rpc_request.rs: take_request, SerializeStructVariant::serialize_field"]}
{"id": "C26", "title": "Content-Length equals the body length", "statement": "Every request and every response that is produced carries, as its last header, a Content-Length whose value is the decimal length of the body that is sent; a handler that calls content_length before reading is told exactly this length, if the header of the request can be expressed in HTTP.", "quantifier": "every request and response value, every body", "why_tests_cant": "all bodies and values", "anchors": ["src/serializers/rpc_request.rs: finish", "src/serializers/rpc_response.rs: finish", "src/lib.rs: content_length"]}
{"id": "C27", "title": "Requests round trip end to end", "statement": "For every procedure and every request in the supported class, the method, URL and headers which the client emits are decoded by the server registered for this procedure to the same request value, and the handler receives the body unchanged.", "quantifier": "every entry point, request type and value of the supported class", "why_tests_cant": "composition of six components on all values", "anchors": ["src/client.rs: CallInner::poll", "src/serializers/rpc_request.rs", "src/deserializers/rpc_request.rs", "src/server.rs: RpcServerBuilder::register"]}
{"id": "C28", "title": "Status names and status codes correspond one to one", "statement": "The status names accepted as response variants are exactly the names the client derives from status codes, and translating a name to a status, to its code and back yields the name.", "quantifier": "every string, every 16 bit code", "why_tests_cant": "all 65536 codes and all strings", "anchors": ["src/serializers/rpc_response.rs: status_from_str", "src/deserializers/rpc_response.rs: status_code_to_str"]}
{"id": "C29", "title": "Response round trip", "statement": "A response enum value whose variants are named after statuses (unit variants, or struct variants with an optional header field of the class of C19) is decoded by the client to the same variant with the same header and body.", "quantifier": "every response type of this shape, every value and body", "why_tests_cant": "all types and values", "anchors": ["src/serializers/rpc_response.rs", "src/deserializers/rpc_response.rs", "src/client.rs: CallInner::poll"]}
{"id": "C30", "title": "A received status is never mistaken for another response", "statement": "The client yields a value of a response enum only if the variant is named after the status code received; an undeclared or unknown status is an Invalid error.", "quantifier": "every response enum type, every response", "why_tests_cant": "all codes, all types", "anchors": ["src/deserializers/rpc_response.rs: Enum::variant_seed, status_code_to_str"]}
{"id": "C31", "title": "Serializing a response never panics and fails only with Invalid", "statement": "Every response value is either turned into exactly one response with one known status or rejected with Invalid; a header field before the status, an unknown field or an unknown status is rejected.", "quantifier": "every value of the data model", "why_tests_cant": "all values", "anchors": ["src/serializers/rpc_response.rs"]}
{"id": "C32", "title": "A wrapped problem response is read back under its status name", "statement": "For every problem p whose status is known, a response enum value wrapping p's response in a variant is sent with p's status and received by a client declaring a newtype variant for that status as the variant named after p's status, whatever variant the server used, with its status field absent and its body giving p back.", "quantifier": "every problem, every variant name", "why_tests_cant": "all statuses and names", "anchors": ["src/rfc7807.rs: ProblemResponse", "src/serializers/rpc_response.rs: serialize_newtype_variant", "src/deserializers/rpc_response.rs: newtype_variant_seed"]}
{"id": "C33", "title": "A ProblemResponse can only be received inside a variant", "statement": "No response message whatever is decoded as a ProblemResponse itself: the client reports Invalid for every status code and every list of headers, because the optional status is fed from an integer (the expectation that a client can use ProblemResponse as its response type is false). And a problem response which was received inside a variant cannot be sent again: sending it is rejected with Invalid.", "quantifier": "every status code, every list of headers, every problem, every body", "why_tests_cant": "universal failure over all messages", "anchors": ["src/rfc7807.rs: ProblemResponse", "src/deserializers/rpc_response.rs: next_value_seed"]}
{"id": "C34", "title": "Exactly which JSON values are problem documents", "statement": "A JSON value is read as problem p exactly if it stands for p: an object with one type, title and status, at most one (possibly null) detail, instance and history, in any order and with any other members; or an array of these in order. Every Problem is recovered from the JSON object it is rendered to and from the body of a response; absent optional members are omitted.", "quantifier": "every Problem, every JSON value", "why_tests_cant": "all titles, statuses, details, instances and histories", "anchors": ["src/rfc7807.rs: Problem, TrackableProblem, AboutBlankProblem"]}
{"id": "C35", "title": "Which status a problem response is sent with", "statement": "A response made by into_response from a problem of known status, after any history of set_problem and set_body calls, is sent with the status code of the problem it was made from, and with a document whose status member is that of its present problem. So both agree for responses as made by into_response, and disagree after every set_problem with another status. A problem of unknown status is rejected with Invalid.", "quantifier": "every problem, every history of set_problem and set_body calls", "why_tests_cant": "all histories", "anchors": ["src/rfc7807.rs: ProblemResponse::new, set_problem"]}
{"id": "C36", "title": "A malformed problem body leaves the default problem", "statement": "Setting a body that is not a problem document leaves the previous problem in place, and setting one that is replaces it entirely.", "quantifier": "every response, every body", "why_tests_cant": "all byte strings", "anchors": ["src/rfc7807.rs: ProblemResponse::set_body"]}
{"id": "C37", "title": "Decision table of the server", "statement": "For every request that was read: an unparsable target is answered 400, an unroutable path 404, a path without handler for the method 405, a request that does not decode 400, and only otherwise the handler's response is sent.", "quantifier": "every registration table, handler and request", "why_tests_cant": "all requests", "anchors": ["src/server.rs: HandleHttpRequest::poll_impl, RpcServerBuilder::register"]}
{"id": "C38", "title": "The handler runs exactly once per decodable request and never otherwise", "statement": "Over any sequence of requests on a connection, the handler invocations are exactly, in order, the routed and decodable requests with their decoded values.", "quantifier": "every sequence of requests and polls", "why_tests_cant": "all histories", "anchors": ["src/server.rs: RpcServerBuilder::register, HandleHttpRequest::poll_impl"]}
{"id": "C39", "title": "Responses are written in request order, one per request", "statement": "On every connection the n-th response written belongs to the n-th request read, and a request is read only after the previous response was written completely.", "quantifier": "every schedule of readiness events and every request sequence", "why_tests_cant": "all interleavings of NotReady", "anchors": ["src/server.rs: HandleHttpRequest::poll_impl"]}
{"id": "C40", "title": "HEAD responses carry no body, all others carry it entirely", "statement": "The body is omitted exactly for HEAD requests, judged by the method of the request being answered and not of an earlier one; the Content-Length is that of the omitted body.", "quantifier": "every sequence of requests on one connection", "why_tests_cant": "all histories of methods", "anchors": ["src/server.rs: HandleHttpRequest::poll_impl", "src/client.rs: CallInner::poll"]}
{"id": "C41", "title": "A closed connection ends quietly, any other failure ends the connection with one warning", "statement": "When reading a request fails with end of file or connection reset the connection handler finishes successfully; on every other failure it finishes with an error after which nothing is read or written.", "quantifier": "every history of events", "why_tests_cant": "all failure points", "anchors": ["src/server.rs: HandleHttpRequest::poll_impl, HandleHttpRequest::poll"]}
{"id": "C42", "title": "Only a request target without a hierarchical path makes the server panic", "statement": "A connection of the server panics exactly when it reads a request whose target is a URL that has no hierarchical path (such as a:b, which makes path_segments().expect fail); no other target, header or method does, and no target of visible characters that starts with a single slash does. (That no target panics, which a user would want, is false of the code.)", "quantifier": "every request target, every registration table", "why_tests_cant": "all strings", "anchors": ["src/router.rs: Router::route", "src/misc.rs: parse_relative_url"]}
{"id": "C43", "title": "The request body is consumed before an error response is sent", "statement": "Whichever branch answers a request, its whole body has been read from the connection before the response is written, so that the next request is read from its first byte (for handlers that read the whole body).", "quantifier": "every request and branch", "why_tests_cant": "all branches and bodies", "anchors": ["src/server.rs: RpcServerBuilder::register, HandleHttpRequest::poll_impl"]}
{"id": "C44", "title": "One connection cannot disturb another", "statement": "Whatever happens on one connection (failure to establish, errors, end), the accept loop keeps accepting and the outputs of the other connections are unaffected; only a failure of the listener itself ends the server.", "quantifier": "every interleaving of accept and connection events", "why_tests_cant": "all interleavings", "anchors": ["src/server.rs: RpcServer::poll"]}
{"id": "C45", "title": "The pool never holds more idle connections than its size", "statement": "After every command the number of idle connections is at most pool_size.", "quantifier": "every history of commands and clock readings, every pool size", "why_tests_cant": "all histories", "anchors": ["src/pool.rs: release_connection, drop_exceeded_lru_connections"]}
{"id": "C46", "title": "A connection is used by at most one call at a time", "statement": "At every moment of every execution a connection is in at most one place: idle in the pool, in a command, in a reply, or in one call; a closed connection is never used again.", "quantifier": "every interleaving of calls, pool polls, completions, failures and drops", "why_tests_cant": "all schedules", "anchors": ["src/pool.rs: RpcClientPool, AcquireConnection, Call"]}
{"id": "C47", "title": "A call only talks to its address", "statement": "Every connection handed to a call for address a was established to a.", "quantifier": "every interleaving", "why_tests_cant": "all schedules and addresses", "anchors": ["src/pool.rs: acquire_connection, release_connection, Call::poll"]}
{"id": "C48", "title": "An idle connection is reused before a new one is opened", "statement": "An acquisition for an address that is not suspended looks at the idle connection released first among those with the same IP address and port: if its address equals the requested one it is reused, no connection is opened and the other idle connections remain; otherwise a new connection is opened. Hence, among addresses that do not differ only in IPv6 scope or flow information, an idle connection is always reused before a new one is opened.", "quantifier": "every pool state reachable by any history, every address", "why_tests_cant": "all histories and address sets", "anchors": ["src/pool.rs: acquire_connection, ConnectionId::cmp"]}
{"id": "C49", "title": "Eviction removes the connections released longest ago", "statement": "When a release exceeds the pool size, exactly the surplus connections with the oldest release are closed; the others stay.", "quantifier": "every history, every pool size", "why_tests_cant": "all histories", "anchors": ["src/pool.rs: drop_exceeded_lru_connections"]}
{"id": "C50", "title": "A failed address is suspended for the configured duration", "statement": "After connecting to an address failed at time t (as seen by the pool), acquisitions for it before t + suspended_duration fail at once without opening or using a connection, the first one at or after that time is attempted again, and other addresses are unaffected.", "quantifier": "every history of commands, every clock", "why_tests_cant": "all histories and clocks", "anchors": ["src/pool.rs: handle_command"]}
{"id": "C51", "title": "Only failed connection attempts suspend an address", "statement": "An address is suspended only if a connection attempt to it failed; failing calls on reused connections, rejected acquisitions and successful calls never suspend it, and each failed attempt reports at most once.", "quantifier": "every interleaving", "why_tests_cant": "all schedules", "anchors": ["src/pool.rs: PooledConnection::poll, handle_command"]}
{"id": "C52", "title": "Successful calls return their connection exactly once, failed calls never", "statement": "A call puts its connection back exactly once, when and only when it completes with a response; a failed or dropped call closes it.", "quantifier": "every interleaving", "why_tests_cant": "all schedules", "anchors": ["src/pool.rs: Call::poll", "src/client.rs: CallInner::poll"]}
{"id": "C53", "title": "Calls on a dropped pool fail instead of hanging", "statement": "Once the pool is dropped every waiting or later call fails with Other; as long as it lives, polling it answers every waiting call.", "quantifier": "every interleaving", "why_tests_cant": "all schedules", "anchors": ["src/pool.rs: AcquireConnection::poll, RpcClientPool::poll"]}
{"id": "C54", "title": "The pool never panics", "statement": "None of the `Never fails` expectations of the pool can fail, and the pool does not panic, in any history with fewer than 2^64 releases in which every suspension ends at a time that the clock can represent; otherwise it panics.", "quantifier": "every history", "why_tests_cant": "all histories", "anchors": ["src/pool.rs: acquire_connection, drop_exceeded_lru_connections, release_connection, handle_command"]}
{"id": "C55", "title": "A call sends its request once and reads one response", "statement": "In every execution of a call the request is serialized and written at most once, after connecting and before reading; the response body is read unless the method is HEAD; every failure ends the call with an error.", "quantifier": "every schedule of readiness events and failures", "why_tests_cant": "all schedules", "anchors": ["src/client.rs: CallInner::poll"]}
{"id": "C56", "title": "JSON fields round trip inside queries and headers", "statement": "A value embedded in a query or header with htrpc::json or htrpc::json_pretty is recovered by the receiver, for every JSON codec that recovers its own output; in headers under lower-case names other than content-length.", "quantifier": "every value, every codec with this law", "why_tests_cant": "all values", "anchors": ["src/json.rs", "src/json_pretty.rs"]}
{"id": "C57", "title": "MessagePack fields can be sent nowhere", "statement": "A value embedded with htrpc::msgpack is never sent in a path, query or header: the bytes are passed as a sequence, so the sender gets an Invalid error. No query or header is decoded as a struct with such a field. (That they can be embedded, as the documentation of the module promises, is false of the code.)", "quantifier": "every value and position", "why_tests_cant": "universal failure over all values", "anchors": ["src/msgpack.rs", "src/serializers"]}
{"id": "C58", "title": "Malformed requests are reported as Invalid", "statement": "Every error which decoding a request or response reports for a supported type is of kind Invalid, and decoding never panics.", "quantifier": "every type and message", "why_tests_cant": "all messages", "anchors": ["src/deserializers", "src/error.rs"]}
{"id": "C59", "title": "Only one of the two booleans survives", "statement": "The boolean false arrives as sent wherever it is used as an argument, query field or header field; true is written as the text ture and every receiver that declared a boolean there rejects the message.", "quantifier": "every position of a boolean", "why_tests_cant": "the three serializers and all surrounding values", "anchors": ["src/serializers/url_path.rs: serialize_bool", "src/serializers/url_query.rs: serialize_bool", "src/serializers/http_header.rs: serialize_bool"]}
{"id": "C60", "title": "Integers survive", "statement": "Every integer of every width from 8 to 64 bits is written in decimal and read back as itself, and a text denoting a number outside the width is rejected. (Full statement. In queries, a text out of range may go unnoticed when an unknown parameter has a declared name as value, see C15.)", "quantifier": "every integer type and value, every text", "why_tests_cant": "2^64 values per type", "anchors": ["src/serializers/url_path.rs: serialize_i64, serialize_u64", "src/deserializers/url_path.rs: parse_escaped_str", "src/deserializers/url_query.rs: parse_cow_str", "src/deserializers/http_header.rs: parse_slice"]}
{"id": "C61", "title": "Order of headers is irrelevant", "statement": "Permuting the headers of a message does not change the decoded header struct.", "quantifier": "every header struct type, every header list with ASCII names (HTTP allows no others), every permutation", "why_tests_cant": "all permutations of all lists", "anchors": ["src/deserializers/http_header.rs: HttpHeaderDeserializer"]}
{"id": "C62", "title": "Repeated headers are rejected", "statement": "A message that contains a declared header twice, in the same or in different case, is rejected with Invalid; neither value silently wins.", "quantifier": "every header struct type, every header list with ASCII names (HTTP allows no others) and such a repetition", "why_tests_cant": "all positions and spellings of the duplicates", "anchors": ["src/deserializers/http_header.rs: next_key_seed, next_bytes"]}
{"id": "C63", "title": "The server reads exactly the variable segments of the path", "statement": "From a path matching the entry point the path decoder reads exactly the percent-decoded values of the segments at the variables, in order: tuples read as many variables as they have elements, sequences all of them, a single value the first. It succeeds exactly when there are enough variables and each of those read is a text of the declared type, and is rejected as Invalid otherwise; in particular a tuple type with fewer elements than the entry point has variables silently ignores the others.", "quantifier": "every entry point, path and type of arguments", "why_tests_cant": "all paths and entry points", "anchors": ["src/deserializers/url_path.rs"]}
{"id": "C64", "title": "Some values can be sent but never received", "statement": "The value true, characters and enum values (alone or inside Some and newtypes) can be sent in a path, query or header but are never accepted by a receiver of the same type.", "quantifier": "every such value, entry point and surrounding arguments", "why_tests_cant": "all values in all positions", "anchors": ["src/serializers/url_path.rs", "src/serializers/url_query.rs", "src/serializers/http_header.rs", "src/deserializers"]}
{"id": "C65", "title": "A remote procedure call delivers the request to its handler and the response to the caller", "statement": "If the messages that reach the server on a connection are requests in the supported class, written by clients for registered procedures, then whatever happens on the connection the n-th request read is the n-th message, the handler that the client meant is called with the value and the body that the client sent and nothing else, and the n-th response written is what this handler returned; a client that sees this response completes with exactly the value and (unless the method is HEAD) the body the handler returned.", "quantifier": "every set of registered procedures, every sequence of requests of the supported class, every history of events on the connection (any fragmentation, failures, premature close), every response of the supported class", "why_tests_cant": "composition of serializers, URL parser, router, deserializers, connection state machine and call state machine over all values and histories", "anchors": ["src/client.rs CallInner::poll", "src/server.rs HandleConnection::poll", "src/router.rs Router::route", "src/serializers", "src/deserializers"]}
{"id": "C66", "title": "Values in a request cannot tear the request line apart", "statement": "Whatever values a request contains (also ones that are later rejected by the server), the request target the client sends starts with /, consists of printable ASCII characters without blanks, has no # and no ? except the one in front of the query; so the server reads the same method and target, and the request line ends where the client ended it.", "quantifier": "every entry point, every request value that is sent at all, every body", "why_tests_cant": "all strings in all positions, including control characters, blanks and non-ASCII text", "anchors": ["src/serializers/rpc_request.rs", "src/serializers/url_path.rs", "src/serializers/url_query.rs"]}
{"id": "C67", "title": "Header values cannot change where a message ends", "statement": "Whatever values are put into the headers of a request or response, the peer reads exactly the headers that were set, and the message ends where the sender ended it.", "quantifier": "every request and response, every header value, whatever follows the message on the connection", "why_tests_cant": "all header texts; a single dangerous one suffices", "anchors": ["src/serializers/http_header.rs HttpHeaderSerializer::append", "src/serializers/rpc_request.rs", "src/serializers/rpc_response.rs"]}
{"id": "C68", "title": "Remote procedure calls over HTTP bytes", "statement": "If clients write requests of the supported class as HTTP/1.1 messages one after another on a connection, then however the bytes are cut into pieces, the n-th request the server reads is the n-th one written and is served by its handler with the value and body sent; the n-th response, written as HTTP/1.1, is read by the client completely and no further, and the call completes with the handler's value and body.", "quantifier": "every sequence of requests and every history of events on the connection, every reason phrase, whatever follows", "why_tests_cant": "all values, all fragmentations of the byte stream", "anchors": ["src/client.rs", "src/server.rs", "src/serializers", "src/deserializers"]}
{"id": "C69", "title": "Exactly which values can be sent, and as what", "statement": "A value is accepted as query or header exactly if it is a struct or map of single values (or of absent options), possibly inside an enum, newtype or Some, or a single value; the pairs sent are then exactly those of the present fields, in order, and a single value is dropped silently. It is accepted as path exactly if it is a tuple (or unit) of single values, as many as the entry point has variables; the path is then the entry point with the arguments in place of the variables. Every other value is rejected with Invalid.", "quantifier": "every serializable value, every entry point, every headers that are there already", "why_tests_cant": "all values of the serde data model, arbitrarily nested", "anchors": ["src/serializers/url_path.rs", "src/serializers/url_query.rs", "src/serializers/http_header.rs"]}
{"id": "C70", "title": "Repeated names in maps", "statement": "A query or the headers of a message received as a map are read entry by entry: if every name and every value can be read as key and value, the result has for each key exactly the value of its last occurrence, and a repeated parameter or header is no error (unlike for structs, C17); otherwise the query or headers are Invalid.", "quantifier": "every query text, every list of headers with ASCII names, all key and value types", "why_tests_cant": "all inputs with any number and order of repetitions", "anchors": ["src/deserializers/url_query.rs: MapAccess", "src/deserializers/http_header.rs: MapAccess"]}
{"id": "C71", "title": "Header maps", "statement": "A map with lower case names and plain values used as headers arrives with all its entries, whatever other headers with different names the transport adds, and those become entries too if they can be read as values of the map. One other header that cannot be read makes the message Invalid.", "quantifier": "every map, every list of headers it is received with", "why_tests_cant": "all maps and all headers that a transport or proxy may add", "anchors": ["src/serializers/http_header.rs: SerializeMap", "src/deserializers/http_header.rs: MapAccess"]}
{"id": "C72", "title": "Queries arrive unchanged or not at all", "statement": "If a value is sent as a query and a receiver of the same type accepts the query, then the receiver gets that value, up to the bits of NaN: no field takes the value of another one. Only Some(None) arrives as None, entries of a map with absent values are missing, and of map keys with the same text the last one counts.", "quantifier": "every value and type (nested options and newtypes, structs, maps) that can be sent as a query", "why_tests_cant": "quantifies over all types and values, including texts with any characters and fields that look like other fields", "anchors": ["src/serializers/url_query.rs", "src/deserializers/url_query.rs"]}
{"id": "C73", "title": "Headers arrive unchanged or not at all", "statement": "If a struct is sent as headers and a receiver of the same type accepts the headers, among any others with different names in any places, then it gets the struct, up to the bits of NaN; only Some(None) arrives as None, as does every optional field whose name is not in lower case. The entries of a map sent as headers arrive with their names in lower case between the entries of other headers. A single text sent as header is dropped and the receiver gets the name of the first header instead.", "quantifier": "every header value and type, every list of headers added by the transport", "why_tests_cant": "quantifies over all types and values and all other headers", "anchors": ["src/serializers/http_header.rs", "src/deserializers/http_header.rs"]}
{"id": "C74", "title": "Path arguments arrive unchanged or not at all, except for texts", "statement": "If a value is sent as a path, the path matches the entry point at the server and the procedure accepts it with the same type, then each argument arrives at its place: numbers and booleans unchanged (up to the bits of NaN), texts changed as in C10, and empty if they are . or .. (up to tabs and line breaks). A unit path is sent but never received.", "quantifier": "every entry point, every value and type of the path, every query behind it", "why_tests_cant": "quantifies over all entry points and all arguments; dot segments and slashes interact with the shape of the path", "anchors": ["src/serializers/url_path.rs", "src/deserializers/url_path.rs"]}
{"id": "C75", "title": "Requests arrive unchanged or not at all", "statement": "If a struct is sent as a request, its target can be parsed by the server, and if the path matches the entry point and a procedure with the same request type accepts the request, possibly with other headers, it gets the path, query and header that were sent, each as in C72, C73 and C74, and the request has the method and the body given. The exception is a header field named content-length: if it is None it arrives as the length of the body.", "quantifier": "every method, entry point, request struct, body and set of additional headers", "why_tests_cant": "quantifies over all request types and values", "anchors": ["src/serializers/rpc_request.rs", "src/deserializers/rpc_request.rs"]}
{"id": "C76", "title": "Responses arrive unchanged or not at all", "statement": "If a value is sent as a response and a client expecting the same type accepts its status and headers, possibly with other headers, then it gets the same variant or status, and the header as in C73, provided that newtype variants around the response have the name of its status (otherwise the client can get another variant than was sent). Inside a newtype variant an optional status arrives as None.", "quantifier": "every response type and value, body and set of additional headers", "why_tests_cant": "quantifies over all response types and values and all statuses", "anchors": ["src/serializers/rpc_response.rs", "src/deserializers/rpc_response.rs"]}
{"id": "C77", "title": "Calls over a connection are never mixed up or altered", "statement": "Clients write any requests they can serialize to one connection, with headers that HTTP can express and that do not describe the body differently. If the server calls a handler for the n-th request, then with the body of the n-th request, for its method, and - if the handler serves the procedure that was called - with the parts that were sent, up to the losses of C72-C74. If the client completes with a value that a handler has returned for its request, this is the returned value, up to the losses of C76, with its body (empty for HEAD).", "quantifier": "every server configuration, every sequence of requests, every division of the bytes into pieces and every history of the connection, every response type and value", "why_tests_cant": "quantifies over all histories of a connection and all values and types", "anchors": ["src/server.rs", "src/client.rs", "src/serializers", "src/deserializers"]}
{"id": "C78", "title": "Requests and responses take turns on pooled connections", "statement": "On every connection of a pool, requests and responses alternate: a request is written only after the response to the previous one was read completely, by the call that sent it (for HEAD there is no body to read). Connections lying idle in the pool are between two exchanges. A call writes the request it was given, at most once over all connections, and a call that completes has read its result right after its own request.", "quantifier": "every pool size, every sequence of calls, polls, results of I/O, commands handled, dropped calls and dropped pools", "why_tests_cant": "quantifies over all interleavings of calls and pool commands; a connection released too early shows only when the next call happens to get it", "anchors": ["src/pool.rs", "src/client.rs"]}
{"id": "C79", "title": "Every completed call gets the answer to its own request", "statement": "Pooled clients make any calls, with requests and responses whose headers HTTP can express; servers are at the other ends of the connections. A call that completes has a place n on some connection such that its request is the n-th one sent there and its result is the n-th response of the server, which is the response to this request: a handler called for it got the body and the parts that were sent, and what it returned is what the call completes with, up to the losses of C72-C76.", "quantifier": "every pool size, number of calls, server configurations, reuse of connections, histories of clients and servers, division of the bytes into pieces, types and values", "why_tests_cant": "quantifies over all joint histories of clients, pool and servers", "anchors": ["src/pool.rs", "src/client.rs", "src/server.rs"]}
{"id": "C80", "title": "Every call comes to an end, and succeeds if nothing stands in its way", "statement": "Once the pool has handled the commands that were in its queue and the network has connected the call, taken its request and delivered head and body of a response, the call is finished, whatever other calls, drops and commands happen in between. If moreover the pool lives, no attempt to connect to the address failed, the request can be serialized and the response deserialized, then the call completes with exactly that response (without body for HEAD), and this result is final.", "quantifier": "every pool size, every history before the call, every sequence of other events between its own, every procedure, request and response", "why_tests_cant": "a lost wake-up or a state in which a call waits for something that never comes shows only in particular interleavings, of which there are infinitely many", "anchors": ["src/pool.rs", "src/client.rs"]}
{"id": "C81", "title": "JSON embedded in a header arrives exactly if it has one line", "statement": "A value embedded with htrpc::json or htrpc::json_pretty is recovered from the text that was written, if numbers are 64 bit integers and nesting is at most 127 deep. In the header of a request the text arrives exactly if no string in it contains the delete character and, for htrpc::json_pretty, the value is not an array or object with contents: pretty JSON has line breaks, which a header cannot carry. Strings may contain any other character, line breaks included, with htrpc::json.", "quantifier": "all embedded types whose values are such JSON documents, all values, all requests with any number of such header fields, both modules", "why_tests_cant": "tests embed a few harmless values; whether some string can break the header or the JSON depends on all characters, and json_pretty only fails on the wire", "anchors": ["src/json.rs: serialize, deserialize", "src/json_pretty.rs: serialize, deserialize", "src/serializers/http_header.rs: HttpHeaderSerializer::append"]}
{"id": "C82", "title": "What the server makes of any request", "statement": "Whatever request arrives, by whatever client it was sent: the value its handler gets consists of the declared parts, each read by its own rule, independently of the other parts and of the order of the fields in the declaration. The field path takes the variables of the path, query the parameters, header the headers; every other field must be optional and is None; and if there is no field header, the request needs at least one header. The handler is called with this value, and if there is no such value the request is answered with 400; nothing else happens to a request that has a handler.", "quantifier": "all requests on all connections, all entry points, all declared request types (without two fields of the same name), all handlers", "why_tests_cant": "tests send the requests that the library's own client makes; other clients send parameters and headers in other orders, repeated, missing or superfluous, and types combine the rules in infinitely many ways", "anchors": ["src/deserializers/rpc_request.rs: RpcRequestDeserializer", "src/deserializers/url_path.rs", "src/deserializers/url_query.rs", "src/deserializers/http_header.rs", "src/server.rs: handle_request"]}
{"id": "C83", "title": "What the client makes of any response", "statement": "Whatever response arrives, by whatever server it was sent: a call completes exactly with the value which the declared type gives to the status and the headers, and fails with Invalid if there is none. An enum takes the variant which is named after the status; a struct takes the status as a number in the field status, and the headers in the field header; every other field must be optional and is None; if there is no field header, the response needs at least one header. Inside of a variant the status cannot be read again.", "quantifier": "all status codes and headers, all declared response types (without two fields of the same name), all executions of a call", "why_tests_cant": "tests receive the responses that the library's own server makes for the declared type; any other status, and any other header, can arrive from other servers", "anchors": ["src/deserializers/rpc_response.rs: RpcResponseDeserializer", "src/deserializers/http_header.rs", "src/client.rs: Call::poll"]}
{"id": "C84", "title": "Every request that arrives is answered", "statement": "A connection of the server never gets stuck. If complete requests arrive on a connection, nothing fails from outside (the transport, read_body) and every handler returns a response, then as long as not all requests have been answered the connection waits for something that can happen with the bytes that are there, whatever the history so far was; each such result brings the exchange forward; and if the things it waits for happen some time, then there comes a time when all requests have been read and all their responses have been written completely, whatever the requests ask for and whatever bytes follow them (only request targets without a path, C42, are left out).", "quantifier": "all server configurations, all sequences of complete requests, all ways in which their bytes and the other events arrive (pieces of any size, spurious polls, events in any order), all infinite fair executions", "why_tests_cant": "liveness is a statement about infinitely many executions: a test sees that a response did arrive in one schedule, not that no schedule leaves a connection waiting for ever", "anchors": ["src/server.rs: HandleHttpRequest (Phase)", "src/server.rs: RpcServer::poll"]}
{"id": "C85", "title": "Which path and which parameters any request target has", "statement": "Whatever request target in origin form (one slash first, visible characters) arrives: the segments of its path are what is between the slashes / or \\ up to ? or #, with dot segments (also when their dots are written %2e) resolved, and with the characters that may not stand in a path escaped; its parameters are the non-empty pieces between &, split at the first =, with + read as a blank, %XX as a byte and ill-formed UTF-8 replaced. Every such target has exactly one such reading; and the response that a request gets, the handler it is given to and the value that the handler is called with are decided by the method, those segments, those parameters and the headers alone.", "quantifier": "all targets that begin with exactly one slash, with any visible characters; all methods, headers, configurations and connections", "why_tests_cant": "targets are arbitrary texts of any length from any client: with escapes anywhere, broken escapes, broken UTF-8, dot segments at any depth; tests pick a few of them, all made by the library's own client", "anchors": ["src/misc.rs: parse_relative_url", "src/server.rs: HandleHttpRequest::poll", "src/deserializers/url_query.rs: UrlQueryDeserializer", "src/deserializers/url_path.rs: UrlPathDeserializer"]}
{"id": "C86", "title": "Dot segments never reach a handler", "statement": "No handler is ever called with the text . or .. in what it gets from the path, however the dots were escaped in the request target and wherever they stood in it. (An escaped slash is no separator: the segment ..%2Fx does reach a handler, as the text ../x.)", "quantifier": "all targets that begin with exactly one slash, all configurations, all connections and histories, all path arguments (also inside of options, newtypes, tuples)", "why_tests_cant": "the claim is about every way to write dots at every position of every path; a test tries a few spellings", "anchors": ["src/misc.rs: parse_relative_url", "src/deserializers/url_path.rs: UrlPathDeserializer::parse_escaped_str", "src/procedure.rs: EntryPoint"]}
{"id": "C87", "title": "Every call ends, with the answer to its own request", "statement": "Pooled clients and servers run for ever, connected by HTTP. If the network delivers what is sent, nothing fails at the servers from outside, their handlers return responses that HTTP can express, and nobody is kept waiting for ever for what is ready for it, then every call ends, whatever all the others do, and its end is final. If moreover no network operation fails for the call, it is not dropped, the pool is not dropped while the call waits for it and connecting to its address never fails, the call ends with what the response of a server to its own request means for its response type (the error Invalid only if it means nothing for that type). If the servers offer the called procedure and request and response are in the supported class, the handler is called exactly once with the value and the body that were sent, and the call ends with exactly the value and the body that the handler returned.", "quantifier": "all pool sizes, all infinite fair executions of any number of calls, of the pool and of the servers, all server configurations, all reuse of connections, all ways in which bytes arrive in pieces", "why_tests_cant": "liveness of a distributed system over all infinite schedules; a test can only see that some calls ended in some schedules", "anchors": ["src/client.rs: Call::poll", "src/pool.rs: RpcClientPool::poll, PooledConnection", "src/server.rs: HandleHttpRequest (Phase), RpcServer::poll"]}
{"id": "C88", "title": "Any HTTP/1.1 client is served", "statement": "Whatever requests a client writes according to the grammar of HTTP/1.1 (request line; header lines with any blanks and tabs around the values; a body of the announced length or none), htrpc reads exactly them: each with its method, target, headers and body, and nothing that is not such a request is taken for one. If their targets begin with exactly one slash, nothing fails from outside and nobody waits for ever for what is ready, then every request is answered, in order, whatever bytes follow the requests: either the handler is called once, with what the rules for targets, queries and headers find in the request and with the body, and the response that it returns is written; or it is refused with 404, 405 or 400 as the rules say, after its body was read. If the handlers return headers that HTTP can express, the client reads one response for each request, with the status, headers and body that the server sent.", "quantifier": "all lists of requests (methods, targets, headers, spacing, bodies), all configurations of the server, all infinite fair executions, all ways in which the bytes arrive in pieces", "why_tests_cant": "the claim is about every byte sequence of the grammar and every schedule; tests use one client library with one way of writing requests", "anchors": ["src/server.rs: HandleHttpRequest (Phase)", "src/router.rs: Router::route", "src/deserializers/rpc_request.rs: RpcRequestDeserializer", "src/misc.rs: parse_relative_url"]}
{"id": "C89", "title": "Which texts are accepted for a type, and what they mean", "statement": "For each type the texts that are accepted in a path, a query or headers, and the values they stand for, are exactly these: for booleans true and false; for integers the decimal numbers with an optional sign (minus only for signed types) within the range of the width; for strings every text (in headers every UTF-8 text); for byte strings every text or header value; for units the empty text in queries, for unit structs the empty text in queries and their name in headers; for options and newtypes the texts of what is inside. The fields of a query or of headers are read from the only parameter or header of their name, names of headers in whatever case; optional fields without one are None; everything else is rejected. Arguments of a path are read from the segments at the variables, in which %, followed by two hexadecimal digits, stands for the character with this code.", "quantifier": "all types, all texts, all paths that match an entry point, all queries, all lists of headers", "why_tests_cant": "tests show that some texts are accepted; that nothing else is accepted is a claim about all texts", "anchors": ["src/deserializers/url_path.rs: UrlPathDeserializer", "src/deserializers/url_query.rs: UrlQueryDeserializer", "src/deserializers/http_header.rs: HttpHeaderDeserializer"]}
{"id": "C90", "title": "Handlers are called for calls of clients only, at most once each", "statement": "Pooled clients make any calls, and servers are at the other ends of their connections. Whatever happens, also if calls fail, time out, are dropped or never end: every call of a handler was caused by exactly one call of a client, whose request went over a connection opened to the address of this call; the handler got the parts and the body of this call; and no call of a client causes two calls of handlers, on one connection or on two. (Nothing is sent again behind the back of the caller.)", "quantifier": "all executions of pooled clients and servers, all numbers of connections, all orders of events", "why_tests_cant": "that a request is never sent again is a claim about all failures at all moments; tests inject a few", "anchors": ["src/client.rs: Call::poll", "src/pool.rs: RpcClientPool", "src/server.rs: HandleHttpRequest"]}
{"id": "C91", "title": "Which texts are accepted as JSON, and what they mean", "statement": "Where a field of a query or of headers is embedded with htrpc::json (or json_pretty), and where the body of a problem response is read, exactly the JSON texts of RFC 8259 are accepted, in whatever way a foreign peer writes them: white space between tokens, all escapes in strings (\\u with surrogate pairs; no lone surrogates, no raw control characters), numbers without superfluous zeros, up to 127 levels; each means the one document the grammar gives it, and the grammar is unambiguous. A field is read from the only parameter (or header) of its name if its text stands for a value of the type; a missing, repeated or malformed one makes the request Invalid; a body that is no such text leaves the default problem.", "quantifier": "all texts, all documents, all queries, all lists of headers, all types whose values are documents", "why_tests_cant": "tests parse a few texts; that exactly the texts of the grammar are accepted is a claim about all of them", "anchors": ["src/json.rs: deserialize", "src/json_pretty.rs: serialize", "src/rfc7807.rs: ProblemResponse::set_body"]}
{"id": "C92", "title": "What request targets mean that are not in origin form, and which of them panic", "statement": "A request target of visible characters has exactly one of four forms. A target without a scheme that does not begin with two slashes, and one with the scheme http (in any case) not followed by two slashes, is served exactly like the target in origin form: a/b, \\a/b, http:a/b and HTTP:/a/b like /a/b. A target with a scheme that is none of http, https, ws, wss, ftp and file, followed by exactly one slash, is served by its segments between / (a backslash does not separate there), its parameters and the headers. With such a scheme and no slash behind it (users:7) the target makes the server panic. All others name a host or a file; what they mean is up to the URL parser. No target of the first three forms is refused as a URL.", "quantifier": "all targets of visible characters, all lists of services, all headers, all states of a connection", "why_tests_cant": "tests send targets in origin form; which targets are read like which, and which bring the server down, is a claim about all texts", "anchors": ["src/misc.rs: parse_relative_url", "src/server.rs: HandleHttpRequest::poll", "src/router.rs: Router::route"]}
{"id": "C93", "title": "Any HTTP/1.1 server can be called", "statement": "Whatever server is called: what it gets from htrpc is a request according to the grammar of HTTP/1.1 (if the header values are such as HTTP can express); and whatever response it writes according to the grammar (any phrase or none, header lines with any blanks around the values, a body of the announced length, none behind a response to HEAD), the call completes exactly with the value which the declared type gives to the status and the headers, and with the body, or fails with Invalid if there is no such value. However the response arrives in pieces, no proper beginning of it is taken for the whole or for an error, and what follows it is not touched. A call never completes with anything but such a response.", "quantifier": "all procedures, all requests, all responses (status codes, phrases, headers, spacing, bodies), all ways in which their bytes arrive, all byte strings a server may send instead", "why_tests_cant": "tests run htrpc against itself; that any server's responses are read as what they say, and nothing else is, is a claim about all byte strings", "anchors": ["src/client.rs: CallInner::poll", "src/deserializers/rpc_response.rs: RpcResponseDeserializer", "src/serializers/rpc_request.rs: RpcRequestSerializer::finish"]}
{"id": "C94", "title": "What anyone reads in the target that a client sends", "statement": "Whatever request a client sends: its target, read by the rules of URLs alone (by any server or proxy, not only htrpc's own), has exactly the entries of the query field as parameters, with the same names and values in the same order, and none if there is no query field; and its path has exactly the segments of the entry point with the arguments in their places, each escaped as a segment, if and only if a URL can carry them (no dot segments, no empty first segment before others). No argument can end the path, begin a query or a fragment, or add or remove a parameter.", "quantifier": "all entry points, all requests (path arguments, queries, headers, bodies) that the client accepts", "why_tests_cant": "arguments and parameters are arbitrary texts; tests read the target back with the library's own server, which would hide errors made on both sides", "anchors": ["src/serializers/rpc_request.rs: RpcRequestSerializer", "src/serializers/url_path.rs: UrlPathSerializer", "src/serializers/url_query.rs: UrlQuerySerializer"]}
{"id": "C95", "title": "What the end of a call tells its caller", "statement": "Whatever calls are made through a pool, in whatever interleaving, with whatever network failures: a call that completes has written its request to exactly one connection, has read one complete response from that connection, and its result is the meaning of that response. A call that fails with Invalid either has sent nothing, because its request cannot be expressed, or has read a complete response which has no meaning for the declared response type. A call that fails with Other has not read a complete response: either it has sent nothing, and the pool is gone or a connection attempt to its address has failed, or its own connection failed after it began to write. A call that panics has sent nothing. So for a request that can be expressed, the kind of the error tells whether the server has answered.", "quantifier": "all sequences of calls, commands handled, network results, drops; all procedures, arguments and responses", "why_tests_cant": "the caller decides by the kind of the error whether a repetition is safe or useful; that every one of the many failure paths, at every moment and interleaving, has the right kind is a statement about all executions", "anchors": ["src/pool.rs: Call::poll, RpcClientPool::handle_command", "src/client.rs: Call::poll, CallInner", "src/error.rs: From impls, ErrorKind"]}
{"id": "C96", "title": "A server reads every byte at most once", "statement": "Whatever bytes arrive on a connection, in whatever pieces, and whatever the read_body of the procedures leaves unread: the requests that the server reads lie one behind another in the bytes that have arrived. Each is read from its own head; the bytes behind it are its body, all of it if the server drops it, and as much as read_body has taken but never more than the body if a handler is called; the next request begins right there. No byte serves for two requests and no request is made up; so handlers are called at most as often as bytes have arrived. Conversely, what read_body leaves of a body is read as the next request: the hypothesis of C43 that bodies are read is necessary. And a handler does not wait for a body: if read_body is content with less than has arrived, the handler is called although the rest is still to come.", "quantifier": "all histories of a connection (bytes, closings, results of user code), all sets of procedures; for every transport whose heads and bodies are made of the first bytes only, among them HTTP/1.1", "why_tests_cant": "the peer is arbitrary and possibly hostile, and read_body is arbitrary code of users; a double read shows only for particular splits of the bytes", "anchors": ["src/server.rs:54-96 register", "src/server.rs:181-271 HandleHttpRequest::poll_impl", "src/procedure.rs: RpcRequest::read_body"]}
{"id": "C97", "title": "How many connections are open", "statement": "At every moment of every execution the clients of a pool have at most so many connections open: the size of the pool, plus one for each call in progress (one that has got its reply from the pool and is not finished), plus those that finished calls have put back and the pool has not taken over yet. So when no call is in progress and no command waits, no more than the pool's size; and once the pool is dropped as well, every connection that was ever opened has been closed.", "quantifier": "every pool size, every interleaving of calls, pool, network results and drops; no bound on their number", "why_tests_cant": "a leak shows only after a particular order of failures, drops and completions, and only in the number of open sockets; the bound is on all executions", "anchors": ["src/pool.rs: RpcClientPool::poll, acquire_connection, release_connection, drop_exceeded_lru_connections", "src/pool.rs: Call::poll"]}
{"id": "C98", "title": "Floating point numbers survive the wire", "statement": "Every f64 and every f32 that is a number - zeros of either sign, subnormal numbers and the infinities included - arrives with the same bits when it is sent as an argument of a path, as a parameter of a query or as a header. An f32 is sent as the text of the f64 of the same value and sign, and nevertheless read back as itself although it is rounded twice. What is not a number arrives as something that is not a number (its payload may be lost). The text that is sent denotes the number for every program that reads decimal numbers by the rules of IEEE 754.", "quantifier": "all 2^64 bit patterns of f64 and all 2^32 of f32, all names of parameters and headers", "why_tests_cant": "2^64 bit patterns; the hard cases of printing and rounding are few and far between", "anchors": ["src/serializers/url_path.rs: serialize_f32, serialize_f64", "src/serializers/url_query.rs: serialize_f32, serialize_f64", "src/serializers/http_header.rs: serialize_f32, serialize_f64", "src/deserializers/url_path.rs: deserialize_f32, deserialize_f64", "src/deserializers/url_query.rs: deserialize_f32, deserialize_f64", "src/deserializers/http_header.rs: deserialize_f32, deserialize_f64"]}
{"id": "C99", "title": "Which texts are accepted as floating point numbers, and what they mean", "statement": "The texts that are accepted for an f64 or f32 in a path, a query or headers are exactly these, with an optional sign: decimal digits with an optional point (at least one digit before or behind it) and an optional exponent (e or E, an optional sign, digits), and inf, infinity and nan in any case. A number means the bits that are nearest to the decimal number, halfway the even ones; what is beyond the greatest number by half a step or more means infinity. A response status that a client declares as a float is exactly that number.", "quantifier": "all texts, all 2^64 and 2^32 bit patterns, all statuses", "why_tests_cant": "tests parse a few texts; that exactly the texts of the grammar are accepted and each is rounded correctly is a claim about all of them", "anchors": ["src/deserializers/url_path.rs: deserialize_f32, deserialize_f64", "src/deserializers/url_query.rs: deserialize_f32, deserialize_f64", "src/deserializers/http_header.rs: deserialize_f32, deserialize_f64", "src/deserializers/rpc_response.rs: RpcResponseDeserializer"]}
{"id": "C100", "title": "Registering another service", "statement": "If one more procedure is registered, a request is answered as before unless it is a request for the new procedure, or the new entry point has made a branch of the routing table that its path now runs into. A request that runs into such a branch is answered by the new procedure if that is the one it is for, else with 405 if its path ends inside the branch and 404 if not, even if another procedure answered it before. The new procedure gets every request that its method and entry point match and that no constant of another entry point leads elsewhere.", "quantifier": "all tables of registrations, all further registrations, all requests", "why_tests_cant": "tests send a few requests to a few tables; that nothing else changes is a claim about all other requests and all tables", "anchors": ["src/router.rs: RouterBuilder::register_handler", "src/router.rs: Trie::insert, TrieNode::get_child", "src/server.rs: RpcServerBuilder::register"]}
{"id": "C101", "title": "Optional fields can be added without breaking the other side", "statement": "If a new version of a procedure has further optional fields in the query or header of its requests or in the header of its responses, in any places, or further variants for other statuses, then clients and servers of both versions understand each other: a server of the new version reads a request of an old client with None for the new fields, and a server of the old version reads a request of a new client without the new fields; likewise for responses. The exceptions are exactly known: a server of the old version can take the value of a new query parameter for the name of a field, and a client of the old version cannot read a status it does not know.", "quantifier": "all request and response types without maps and all extensions of them, all values in the supported class, all additional headers", "why_tests_cant": "tests have one version of a few types; that every extension is compatible with every value in both directions is a claim about all pairs of types", "anchors": ["src/deserializers/url_query.rs: MapAccess, deserialize_ignored_any", "src/deserializers/http_header.rs: MapAccess, deserialize_ignored_any", "src/deserializers/rpc_request.rs: RpcRequestDeserializer", "src/deserializers/rpc_response.rs: RpcResponseDeserializer"]}
{"id": "C102", "title": "What a caller learns when a server refuses its request", "statement": "A request that htrpc itself refuses, since its path is unknown (404), its method is not registered for the path (405) or it does not decode (400), ends the call as the type of the response says: with Invalid if it has no variant for this status, with this variant if it is a unit variant, and with the complete problem document of the server if the variant contains a ProblemResponse. For HEAD requests there is no body, so that the ProblemResponse keeps the default problem with the status 500.", "quantifier": "all servers, all histories of a connection, all refused requests, all procedures with an enum as response, all pieces in which the response arrives and all bytes that follow", "why_tests_cant": "tests refuse a few requests of a few procedures; that every caller learns the same document that the server has made is a claim over all problems, response types and divisions into pieces", "anchors": ["src/server.rs: HandleHttpRequest, register", "src/client.rs: Call::poll", "src/rfc7807.rs: ProblemResponse, Problem", "src/deserializers/rpc_response.rs: RpcResponseDeserializer"]}
{"id": "C103", "title": "The text of a float is the shortest one", "statement": "A finite f64 is sent as the decimal number with the fewest digits of all that are read as its bits, and of those with so few digits as one that is closest to its exact value; it is written without an exponent and without superfluous zeros, and these rules leave one text for each number. An f32 is sent as the shortest text of the f64 with the same value, which may be longer than its own shortest text: 0.1 as f32 is sent as 0.10000000149011612 though 0.1 would be read as it.", "quantifier": "all finite bit patterns of f64 and f32, all decimal numbers that compete with the one that is sent", "why_tests_cant": "that no shorter and no closer number exists is a claim over infinitely many texts for each of 2^64 bit patterns", "anchors": ["src/serializers/url_path.rs: serialize_f32, serialize_f64", "src/serializers/url_query.rs: serialize_f32, serialize_f64", "src/serializers/http_header.rs: serialize_f32, serialize_f64"]}
{"id": "C104", "title": "What is not a request ends the connection", "statement": "If a client sends something that is not a request according to the HTTP grammar after any number of requests, then the server reads, gives to handlers and answers the requests before it and nothing else, whatever bytes follow, even if they contain requests. If there is an empty line in what was sent, so that it is not just the beginning of a request, then all requests before it are answered and then the connection is closed with a warning in the log.", "quantifier": "all services, all sequences of requests, all bytes behind them, all ways the bytes arrive in pieces, all handlers, all fair schedules", "why_tests_cant": "malformed input is an infinite space, and that nothing behind it is ever taken for a request is a claim about all continuations and schedules", "anchors": ["src/server.rs: HandleHttpRequest::poll, read_request"]}
{"id": "C105", "title": "How large a request can be", "statement": "The server answers all requests whose first line and headers have at most 8096 bytes together and that have at most 32 headers, however long their bodies are. A request that is larger is neither read nor answered, and neither is anything behind it; the requests before it are answered, and then the connection is closed with a warning, as soon as the 8096 bytes or the empty line have arrived. The client does not know about this limit: it sends every request that can be serialized, including the content-length header that it adds.", "quantifier": "all services, all sequences of requests, all sizes of heads and bodies, all ways the bytes arrive in pieces, all handlers, all fair schedules; all requests a client can serialize", "why_tests_cant": "tests try a few sizes and never the interplay of a size with pipelined requests and arrival in pieces", "anchors": ["src/server.rs: RpcServer::poll (Connection::new(stream, 1024, 8096, 32))", "src/server.rs: HandleHttpRequest::poll", "src/client.rs: RpcClient::call"]}
{"id": "C106", "title": "Every sequence of bytes", "statement": "Whatever bytes a client sends (without transfer encodings), they are in exactly one way a sequence of complete requests that the server has room for and a rest, which is the beginning of a head, a head with a part of its body, something that no continuation makes a request, or a head that does not say where its body ends. The server answers and gives to handlers only the complete requests, each as it was sent and in order; of the rest it reads at most one head, whose body is never used. All the complete requests are answered, whatever the rest is and whatever follows; if the rest cannot become a request or does not say where its body ends, then the connection is closed with a warning after that.", "quantifier": "all sequences of bytes, all ways they arrive in pieces, all services and handlers, all schedules (fair ones for what happens some time)", "why_tests_cant": "tests send a handful of requests and broken requests; that there is no other case, and that none of them is answered early, twice or with the bytes of another, is a statement about all byte sequences", "anchors": ["src/server.rs: HandleHttpRequest::poll", "src/server.rs: RpcServer::poll (Connection::new(stream, 1024, 8096, 32))"]}
{"id": "C107", "title": "Pooled calls to any server", "statement": "Whatever the servers at the other ends write on the connections of a pool, in whatever interleaving the calls run: the bytes on a connection begin with at most one response to a given method, so that the n-th response is well defined; a call that completes has sent its request as the n-th one on some connection, what was written there begins with responses to the requests before it, and the result is the meaning of the response that follows them, the n-th. Nothing relates this response to the request: if the server has written one response too many, then it becomes the result of the next call over that connection, though it was there before the request was sent. If what a server writes contains an empty line but cannot become a response, the call fails with Other.", "quantifier": "all bytes written by servers, all sizes of pools, all calls, all schedules of calls, polls and the pool", "why_tests_cant": "tests run against a well-behaved server; the claim is about every byte sequence and every interleaving on reused connections", "anchors": ["src/pool.rs: RpcClientPool::acquire_connection, release_connection", "src/pool.rs: Call::poll", "src/client.rs: CallInner::poll"]}
{"id": "C108", "title": "Exactly which requests arrive unchanged", "statement": "Whatever request (without NaN) the client serializes for an entry point with plain constants, the server's copy is the same request if and only if it is a struct with the fields path, query and header (possibly inside newtypes; a variant of an enum never arrives) each of which is absent or one that arrives: the path is a tuple (or tuple struct, or newtype of one) of false, integers, floats and strings, in ASCII without tabs and line breaks, making up a path that a URL can carry (no dot segments, first segment not empty unless alone); the query is a struct of plain or None fields or a map of plain keys and values (also inside Some and newtypes); the headers are a struct of plain or None fields whose fields with names not in lower case are None. Nothing else arrives unchanged, and nothing in this class fails to arrive.", "quantifier": "for every entry point of plain constants, every request value and type, every body, and every list of headers in which the headers asked for are those that were sent", "why_tests_cant": "An exact characterisation over all values of all types: tests can show that some values arrive and some do not, not that the boundary is exactly here.", "anchors": ["src/serializers/rpc_request.rs", "src/deserializers/rpc_request.rs"]}
{"id": "C109", "title": "Exactly which responses arrive unchanged", "statement": "Whatever response (without NaN) a server sends, a client that expects its type gets the same response if and only if all names of variants in it, also of newtype variants around it, are the name of its status; a struct's status is a plain integer and the struct is not inside a newtype variant; and its headers are a struct of plain or None fields whose fields with names not in lower case are None. This holds whatever other headers are added, in whatever places.", "quantifier": "for every response type with distinct names, every value of it that is sent, every body, and every list of at least one header in which the headers asked for are those that were sent", "why_tests_cant": "An exact characterisation over all values of all response types: tests can show single responses arriving or not, not that the boundary is exactly here.", "anchors": ["src/serializers/rpc_response.rs", "src/deserializers/rpc_response.rs"]}
{"id": "C110", "title": "Exactly which calls are transparent on the wire", "statement": "Whatever request (without NaN) a client writes to a connection, and whatever follows it there, a server calls the service it is meant for with the same request and body, and goes on with what follows, if and only if: the request is a struct, possibly inside newtypes; the path is a tuple of plain ASCII arguments without tabs and line breaks that a URL can carry, and no other service has one of the arguments as a constant in its place; the query is a struct of plain or None fields or a map of plain keys and values with distinct keys; the header is a struct of plain or None fields with names in lower case; HTTP can express the headers (names are tokens, values have no control characters and no blanks at the ends); and the first line and headers have at most 8096 bytes, and at most 32 headers. Likewise a client gets the response that a server has written, with its body unless the request was HEAD, and goes on with what follows, if and only if the response is in the class of C109 and HTTP can express its headers.", "quantifier": "for every server, every registered service with plain constants, every request and response of the expected types that is sent, every body, every reason phrase, and every sequence of bytes that follows", "why_tests_cant": "An equivalence over all values, tables of services, bodies and following bytes: tests can find single values that are changed, not that all others arrive, over the bytes actually written, nor that the conditions miss nothing.", "anchors": ["src/client.rs:84-151", "src/server.rs:145-262", "src/serializers/rpc_request.rs", "src/deserializers/rpc_request.rs", "src/serializers/rpc_response.rs", "src/deserializers/rpc_response.rs"]}
{"id": "C111", "title": "Exactly which calls reach their handler and their caller on a connection", "statement": "Let a client send a request (without NaN) on a connection after any complete requests, and anything after it. However much of this has arrived, the server calls the handler of the service it is meant for with the same request only if the conditions of C110 hold, and then once and with its body; and if everything arrives, and what the connection waits for happens, it does so if and only if they hold. And whatever else happens on the connection, the call that sent a request and gets what the server has written for it completes with the response that the handler has returned if and only if the conditions of C110 for responses hold, and then with the body that the handler has returned (for HEAD, with none).", "quantifier": "for every server, every history of a connection (finite for the first part, infinite and fair for the second), every sequence of complete requests before, every sequence of bytes behind, every registered service with plain constants, every request and response of the expected types, every body, every reason phrase, and every schedule of polls of the client", "why_tests_cant": "The equivalence is about all histories of a connection, in which bytes arrive in any pieces among other requests and polls; a test fixes one history, and cannot show that a call outside the conditions never reaches its handler unchanged.", "anchors": ["src/client.rs:84-151", "src/server.rs:60-262", "src/serializers/rpc_request.rs", "src/deserializers/rpc_request.rs", "src/serializers/rpc_response.rs", "src/deserializers/rpc_response.rs"]}
{"id": "C112", "title": "Where a call goes, whatever its arguments are", "statement": "The path of a call is read, by the rules of URLs alone, as the segments that result from adding its constants and arguments to the root one after the other: arguments . and .. are left out, empty ones are left out at the beginning, and one that becomes .. when tabs and line breaks are removed empties the segment before it (and removes the first one); everything else stands escaped in its place. A server hands the call to a handler only if this is registered with the method and an entry point that matches these segments. If a URL can carry the path then this entry point has as many segments as that of the call and no other constant where that has one. Otherwise the call may be one of another procedure: with .. or . as an argument it is the same request as that of the procedure with one variable less, and with such an argument behind the first segment it is the same request, byte for byte, as that of the procedure that the rest is the entry point of.", "quantifier": "for all methods, entry points, structs with distinct field names, arguments of any text, bodies, all servers and everything that is sent behind the request", "why_tests_cant": "The places that a call may reach depend on every text of every argument, with tabs, line breaks, dots and slashes in all combinations, and on all tables of entry points; tests try a few arguments and a few tables.", "anchors": ["src/serializers/url_path.rs:20-60", "src/serializers/rpc_request.rs:200-230", "src/router.rs:26-46", "src/server.rs:215-245"]}
{"id": "C113", "title": "Different calls are different on the wire", "statement": "Two different requests of one type, sent to the same entry point, never have the same target and the same headers, and never the same bytes, whatever is sent behind them; the same bytes mean the same method, request and body. Likewise two different responses of one type never have the same status and headers, or the same bytes (for HEAD, up to the body). This holds for the values without NaN of types whose parts are told apart: in paths, fields and maps scalars, enums without contents and newtypes of these; fields of queries and headers may be one Option; responses are enums whose variants have at most headers, or structs; HTTP must be able to express the headers; and a URL must be able to carry the path (no dot segments) and its arguments have no tabs and line breaks. Each of these exclusions is needed: outside of them there are different requests that are the same on the wire.", "quantifier": "for all entry points, types of the class, pairs of values, pairs of bodies, methods, reason phrases and everything that follows", "why_tests_cant": "It speaks about all pairs of values of all types; a test compares a few.", "anchors": ["src/serializers/rpc_request.rs:60-230", "src/serializers/url_path.rs:20-120", "src/serializers/url_query.rs:20-160", "src/serializers/http_header.rs:20-140", "src/serializers/rpc_response.rs:22-248"]}
{"id": "C114", "title": "What ends a pool", "statement": "A pool that is not dropped lives on whatever its calls do, as long as fewer than 2^64 connections are put back and every suspension ends at a time that a SystemTime can represent. If set_suspended_duration is given more than that (for example Duration::from_secs(u64::MAX), to suspend for ever), then no address is ever suspended; instead the first failure to connect ends the pool as soon as it is handled, with all idle connections, and all calls that wait or come later fail (C53).", "quantifier": "every interleaving of calls, pool polls, clock readings, completions, failures and drops; every pool size; every duration", "why_tests_cant": "all interleavings; and a test with an ordinary duration never sees the overflow", "anchors": ["src/pool.rs:139-141", "src/pool.rs:172-175", "src/pool.rs:206-213", "src/pool.rs:226-235"]}
{"id": "C115", "title": "How long a call may connect", "statement": "A call through a pool that opens a connection may take for this as long as the connect timeout that was in force when the pool began to connect: one second, or what set_connect_timeout was last given before that; setting it later changes nothing for this call. If it is polled when that time is over and the connection is not there, the call fails with Other and its address is reported to the pool to be suspended, just as if connecting had failed; before that time a poll that finds nothing changes nothing. The timeout decides nothing else: every execution is one without timeouts in which the network fails some attempts. In particular a call that has its connection is not limited: as long as the server does not answer, it waits, for ever if need be.", "quantifier": "every interleaving of calls, pool polls, clock readings, changes of the timeout, completions, failures and drops; every pool size, timeout and time", "why_tests_cant": "all interleavings and all times, and that a call waits for ever", "anchors": ["src/pool.rs:128", "src/pool.rs:144-146", "src/pool.rs:194-203", "src/error.rs:75-83"]}
{"id": "C116", "title": "Types of fields can be made wider without breaking the other side", "statement": "In a new version of a procedure the arguments of a path and the fields of queries and headers may get wider types: integers a type with a larger range, booleans and numbers become strings, and each of them may be put into a newtype or taken out of one; in queries and headers a value may also become optional. The tuple of a path may become a tuple struct, the status of a response an integer with a larger range, and an enumeration of responses may get further variants. Then a server of the new version accepts every request that the old one accepted, from whatever client, and gets the same values in the new types; likewise for a client and the responses that it reads. Whoever writes the same values in the new types writes the same bytes; in place of a boolean or a number that is the string of its text, which is `ture` for true. Not included are f32 in place of f64 or the reverse. An optional field of a query or of headers must not be put into a newtype: then it is not optional any more and messages without it are refused.", "quantifier": "all request and response types and all wider ones without maps, with distinct field names; all requests that match the entry point and all responses, with ASCII header names; all values that are sent, all entry points and bodies", "why_tests_cant": "all pairs of types and all messages of all clients", "anchors": ["src/serializers/url_path.rs:75-98", "src/serializers/url_path.rs:145-181", "src/serializers/url_query.rs:52-77", "src/serializers/url_query.rs:99-136", "src/serializers/http_header.rs:52-77", "src/serializers/http_header.rs:102-139", "src/deserializers/url_path.rs:235-269", "src/deserializers/url_query.rs:202-238", "src/deserializers/url_query.rs:305-324", "src/deserializers/http_header.rs:218-255", "src/deserializers/http_header.rs:322-341", "src/deserializers/rpc_response.rs:152-163", "src/deserializers/rpc_response.rs:222-268"]}
{"id": "C117", "title": "What is read has the declared type, and which requests can be passed on", "statement": "Whatever comes in, handlers are called only with values of the type that their procedure declares: all declared fields are there in their order, integers are in the range of their type, tuples have the declared length and variants are declared ones; likewise for what a call returns. So a gateway, whose handler calls a procedure of another server with the request that it gets, can always send it, if the request has as many variables in its path and consists of booleans, numbers, strings and newtypes of these, in queries and headers also options of them. But what arrives is the request that was read if and only if there is no true in it and the arguments of its path are in ASCII without tabs and line breaks and make up a path that a URL can carry.", "quantifier": "all types with distinct field names, all connections, requests and responses with ASCII header names; for passing on: all types of this kind with header names in lower case other than content-length, all pairs of entry points whose second one has plain constants and as many variables as the type, all requests without NaN that were read, all bodies, and all further headers with other names", "why_tests_cant": "all requests, responses and types, and all requests that can be read at one server and sent to the next", "anchors": ["src/deserializers/rpc_request.rs:37-285", "src/deserializers/rpc_response.rs:30-377", "src/deserializers/url_path.rs:69-361", "src/deserializers/url_query.rs:51-334", "src/deserializers/http_header.rs:63-351", "src/serializers/url_path.rs:58-255", "src/serializers/url_query.rs:35-232", "src/serializers/http_header.rs:35-234"]}
{"id": "C118", "title": "Which responses can be passed back by a gateway", "statement": "Let a handler return the response that a call to another server has returned, in the same type: a struct of an integer as status and perhaps headers, or an enumeration of variants without content or with nothing but headers; headers are booleans, numbers, strings, newtypes of these and options of them. If the status of the other server is one that has a name in htrpc, the response is sent with the same status and the same body, and the one that arrives is the one that was read if and only if there is no true in its headers. If the status has no name, it can be read as a number, but the handler's response is refused when it is sent. And what a call has returned as a newtype variant with a struct inside, in whatever type, can never be returned by a handler, although clients read it.", "quantifier": "all types of this kind with header names in lower case other than content-length, all statuses and headers with ASCII names that the other server sends, all histories of the call, all responses without NaN, all bodies, and all further headers with other names; for the last part all types with distinct field names", "why_tests_cant": "all statuses and headers that any other server can send, in all types", "anchors": ["src/deserializers/rpc_response.rs:30-377", "src/deserializers/http_header.rs:63-351", "src/serializers/rpc_response.rs:54-315", "src/serializers/http_header.rs:35-234", "src/client.rs:119-122"]}
{"id": "C119", "title": "Requests and responses that pass through any number of gateways", "statement": "Let servers be in a row, each of which calls the next one with the request that it has read, in a type of booleans, numbers, strings, newtypes of these and, in queries and headers, options of them. A request without true, whose path a URL can carry, gets through to the last server, whatever entry points, methods, bodies and further headers there are; its query and its headers are unchanged, but each text in its path is taken as the Latin-1 reading of its UTF-8 bytes once per server, and nothing else can arrive. So the bytes outside of ASCII double at each server: after n servers a text without tabs and line breaks takes as many bytes as it has ASCII characters, plus 2 to the power of n times the number of its other bytes. The request arrives unchanged if and only if its arguments are in ASCII without tabs and line breaks. A request with a true in it gets past no server. On the way back responses never change: a response that was read gets back through any number of servers if there is no true in its headers and its status has a name in htrpc, and otherwise through none.", "quantifier": "all numbers of servers, all methods and entry points with plain constants and as many variables as the type, all types of this kind with header names in lower case other than content-length, all requests and responses without NaN, all bodies and all further headers with other names at each server", "why_tests_cant": "all lengths of the chain and all requests and responses; the growth is a statement about every number of servers", "anchors": ["src/serializers/url_path.rs:58-255", "src/deserializers/url_path.rs:69-361", "src/serializers/rpc_request.rs:54-202", "src/deserializers/rpc_request.rs:37-285", "src/serializers/rpc_response.rs:54-315", "src/deserializers/rpc_response.rs:30-377"]}
{"id": "C120", "title": "Problems on their way from a handler to a caller", "statement": "Let a handler that is called for a request on a connection return a problem of rfc7807 in a variant of its response, whatever name the variant has. What the server writes has the status of the problem. The call that has sent the request and gets what was written, however the bytes and its polls are scheduled and whatever comes afterwards, completes with the variant that is named after the status if the client has declared it with a ProblemResponse, and the problem in it is the one that the handler has returned. For HEAD there is no body, and the client sees the problem about:blank with status 500 instead, whatever the status is. If the client has not declared a variant for the status, the call fails with Invalid. If the status of the problem is not one of those known to htrpc, nothing is written. And a call whose response type is ProblemResponse itself never completes, whatever the server does.", "quantifier": "every server and every history of a connection, every problem, every variant name, every declared enumeration of the client, every reason phrase, whatever follows on the connection, every schedule of polls; for the last part every history of a call", "why_tests_cant": "all problems (texts, histories, statuses) and all histories of connections and calls", "anchors": ["src/rfc7807.rs:18-54", "src/rfc7807.rs:118-159", "src/client.rs:104-123", "src/server.rs:60-101", "src/serializers/rpc_response.rs:54-315", "src/deserializers/rpc_response.rs:30-377"]}
{"id": "C121", "title": "How large a response can be, whatever the limits of the client are", "statement": "The client leaves it to its HTTP library how many bytes the status line and the headers of a response may have together, and how many headers there may be. Whatever these two limits are: a response according to the grammar of HTTP/1.1 that keeps them is read exactly as without limits, however long its body is and however it arrives in pieces; one that exceeds them makes the call fail with Other, whatever follows, as does anything that fills the buffer before a head is complete; and a call completes with nothing but a response that keeps them.", "quantifier": "all limits, all procedures and requests, all responses (status codes, phrases, headers, spacing, bodies), all byte strings a server may send instead, all schedules of polls", "why_tests_cant": "all limits and all responses; the limits are not in the code", "anchors": ["src/client.rs:36-41", "src/client.rs:99-116", "src/pool.rs:196-197"]}
{"id": "C122", "title": "Bodies sent in chunks", "statement": "A request or response whose body has no declared length but is sent in chunks (transfer encoding `chunked`, names and sizes in letters of either case, with extensions and header lines behind the last chunk) is read with exactly the concatenation of the chunks as its body, and no byte of what follows is used; nothing else is taken for a body, and no part of one is taken for the whole or for an error. Requests with and without chunks one after another are each answered by the rules with their own body. Whether the body is sent in chunks or with its length, the same handler is called with the same value, unless a request type asks for these headers. A call whose response is in chunks completes with the value of its type and the whole body, or fails with Invalid if there is no such value; it completes only with such a response and waits before the last chunk is complete.", "quantifier": "every body, every way to cut it into chunks, all extensions and trailing headers, all sequences of requests, all services and types of responses, all schedules and pieces in which the bytes arrive", "why_tests_cant": "there are unboundedly many ways to cut a body and to deliver the pieces", "anchors": ["src/server.rs: RpcServerBuilder::register, HandleHttpRequest (into_body_reader)", "src/client.rs: Call::poll (into_body_reader)", "src/lib.rs: BodyReader"]}
{"id": "C123", "title": "The restart of a server costs at most one call for each connection", "statement": "Let a client make calls through a pool, and let some connections fail at some moment, as when a server is restarted. A connection lets down at most one call: different calls that end without a response never had the same connection, so that the failure of some connections costs at most as many calls as there are of them. Of the calls that are made after the moment, at most as many are without a response although they got a connection that was opened before it, as the pool may keep, plus one for each call in progress then, plus one for each connection that was put back but not yet taken over by the pool; if nothing was in progress, at most as many as the pool may keep. A connection that a call did not open itself has served before: a different call to the same address got a response on it and put it back.", "quantifier": "all pool sizes, all sequences of events (calls, polls with any results of the network, commands handled at any times, drops) before and after the moment, all lists of different calls", "why_tests_cant": "A bound on the cost of a restart over every interleaving of calls, failures and reuse; tests can restart a server under one load and count, but another order could lose more.", "anchors": ["src/pool.rs:178-224", "src/pool.rs:257-263", "src/pool.rs:316-330"]}
{"id": "C124", "title": "Handlers act while their calls are in progress, so in the order of the callers", "statement": "Pooled clients and servers run for ever, connected by HTTP; the network may delay or lose what is sent but invents nothing. For a call of a client a handler is called at one moment at most, which is after the call was made, and it returns at one moment at most, not before it was called. If the call completes with a response and a handler is ever called for it, then this was called and has returned before the call completed, and what it returned is the result of the call. So if one call has completed when another is made, and handlers are called for both, then the handler for the first is called before that for the second, also on different connections and servers, and if the calls are made by different processes with pools of their own; calls that are made one after another, each when the one before has completed, have their effects in this order, each once. If the handlers together are an atomic object, whose operations take effect one at a time between the call and the return of the handler, then so it is for the callers (it is linearizable): a call that completes takes effect once, at a moment after it was made and before it completed, and its result is the result of the operation at that moment. This does not extend to calls that are given up: the handler for a dropped call may be called after the handler for a call that was made later.", "quantifier": "all infinite executions of a pool with any number of calls and of servers at the other ends of all connections, all delays, losses and divisions of the bytes into pieces, all server configurations, all sequences of calls", "why_tests_cant": "A statement about the order of events at two sides over every interleaving, delay and reuse of connections; a test shows one schedule, and the bad one for dropped calls needs a request that is delayed in the network.", "anchors": ["src/client.rs:50-131", "src/pool.rs:316-330", "src/server.rs:179-281"]}
{"id": "C125", "title": "What a pool keeps, and what it never forgets", "statement": "A pool keeps not more idle connections than its size, one entry of its queue of ages for each of them, and at most one entry for each address to which connecting has failed. Suspensions are not forgotten when they are over: an address is kept exactly if a failure to connect to it was reported and since the last report no acquisition for it was handled at or after the end of the suspension. As long as the pool lives nothing but another call to the same address ends its entry; neither time nor other calls do. So there is no bound: whatever its size, a pool can keep any number of addresses while all calls have ended, nothing waits and no connection was ever opened (a client that is given ever new addresses, as with service discovery, grows for ever).", "quantifier": "every interleaving of calls, pool polls, clock readings, completions, failures and drops; every pool size; any number of addresses", "why_tests_cant": "about all histories of a pool; memory that is not freed shows in no result of a call", "anchors": ["src/pool.rs:98-108", "src/pool.rs:148-177", "src/pool.rs:206-224"]}
{"id": "C126", "title": "A call that has its connection depends on nothing else", "statement": "A call through a pool either has no connection so far, and then it has done nothing, or it got one at some moment, and from there on it is a plain call (RpcClient::call) of the same procedure with the same arguments: with the results that it gets when it is polled it comes exactly as far as that, and ends with the same response or error. What happens otherwise makes no difference to it: that the pool is dropped or panics, that addresses are suspended (also its own), that durations are changed, that other calls are made, fail or are dropped. So two executions in which a call is at the same point and afterwards gets the same results, and is dropped in both or in none, end in the same way for this call.", "quantifier": "all executions of pools and all pairs of them, all interleavings with other calls and with the pool, all procedures, arguments and results of the network", "why_tests_cant": "noninterference compares all pairs of executions; a test sees one interleaving at a time", "anchors": ["src/pool.rs:268-330", "src/client.rs:30-131"]}
{"id": "C127", "title": "What a server does on a connection does not depend on timing", "statement": "On a connection of RpcServer, what happens - which requests are read, which handlers are called with which requests, which responses are written and how the connection ends, all in order - is determined by the bytes that the client sends, by how these bytes end, and by the code of the users (read_body as a function of the decoded request and its body, the handler as a function of everything that has happened on the connection before). It does not depend on how the bytes are cut into pieces, on whether requests are sent one by one or pipelined, on when the connection is established or polled, nor on how long handlers or writing take. So of two histories with the same bytes and code one is always a beginning of the other in this sense; two connections that are over have done exactly the same; and on a connection that is polled as long as it can go on, everything happens that happens in any other history. A failure from outside (to establish the connection, of read_body, of writing) only cuts this off: up to the warning, what has happened is what would have happened without it.", "quantifier": "for all server configurations, all bytes, all ends of the incoming bytes, all behaviours of read_body (reading the whole body) and of handlers, all pairs of histories of events (bytes arriving in any pieces, polls in any order, failures from outside at any time), and for all fair infinite histories", "why_tests_cant": "A test runs a few schedules; the claim compares every pair of schedules of any length, including all ways of cutting a stream of requests into pieces.", "anchors": ["src/server.rs:147-160", "src/server.rs:180-272", "src/server.rs:274-281", "src/server.rs:54-99"]}
{"id": "C128", "title": "One call after another: like calls of a local object", "statement": "A program makes its calls through a pool one after another, each when the one before it has completed, on connections that the pool reuses or opens as it likes, and the handlers of the servers behind are together one atomic object which nobody else uses. Then the program cannot tell this from a local object: the result of each call for which a handler is called is the result of the operation in the state that the operations of the calls before it, in their order and each once, have made of the initial state (calls that the servers refuse change nothing); and the operation is that which the caller asked for: a procedure registered at the server with the caller's method, the fields and the body that were given. If calls fail or are given up before the next is made, a call that completes has its result after all operations of the completed calls before it, in order and each once, and of the others some have taken effect, each at most once and not before a call that had completed before it was made.", "quantifier": "all pool sizes, all sequences of calls of any procedures at any addresses, all timings of clients, pool, network and servers, all deterministic objects with any state, all initial states", "why_tests_cant": "A test makes some calls with some timing; the claim is about every program of this kind, every object and every schedule.", "anchors": ["src/pool.rs:148-177", "src/pool.rs:268-330", "src/client.rs:30-131", "src/server.rs:54-99", "src/server.rs:180-272"]}
{"id": "C129", "title": "Which header lines messages have, and that Host is not one of them", "statement": "A request has the header lines that its type declares in the field `header`, in their order, one for each field that has a value, and one last line with the length of the body; there are no others. The same holds for responses; a response with which the server refuses a request has, besides the length, only the media type of problems. In particular a request whose header is a struct has exactly one line of a given name if and only if exactly one field of this name, in upper or lower case, has a value; so a call is understood by a server that demands the line `Host`, as HTTP/1.1 requires it, only if the request type declares it, and never if it declares no header.", "quantifier": "all procedures, all request and response values of any shape, all bodies, all histories of a connection", "why_tests_cant": "a line that is added, lost or doubled shows only for particular declarations and values; that nothing else is ever sent is a claim about all of them, and tests that run htrpc against itself do not notice a missing Host", "anchors": ["src/serializers/rpc_request.rs:40-62", "src/serializers/rpc_request.rs:200-268", "src/serializers/rpc_response.rs:44-52", "src/serializers/rpc_response.rs:198-248", "src/serializers/http_header.rs", "src/server.rs:181-271"]}
{"id": "C130", "title": "Interim responses", "statement": "A server may send interim responses (status 1xx) before the response proper. If no variant of the response type is named after such a status, then a call to such a server fails with Invalid, whatever the answer is, and a call that completes has got a response that is not an interim one and is the first the server sent. A connection is used again only if all calls before on it have completed. So through a pool, with any interleaving of calls, no call gets the answer to another request: one that completes has sent the n-th request over its connection, the server has answered it without interim responses, and the call completes with this answer. But if the response type can express the interim response, the call completes with that, and the answer is left on the connection, to be read by the next call.", "quantifier": "all procedures, requests, bytes sent by servers, numbers of interim responses, all schedules of calls, polls and the pool", "why_tests_cant": "tests run against htrpc's own server, which never sends interim responses; the pooled claim is about every interleaving", "anchors": ["src/client.rs: CallInner::poll", "src/pool.rs: Call::poll", "src/deserializers/rpc_response.rs: RpcResponseDeserializer"]}
{"id": "C131", "title": "Statuses that forbid a body", "statement": "By RFC 7230, 3.3.3 responses with status 1xx, 204 or 304 have no body, whatever their Content-Length says; this makes it clear where each response ends. The client does not know this rule. A response whose status allows a body, or whose headers announce none, is read as it is meant. But if a server announces a length in such a response, as RFC 7230 allows for 304, the call waits for that many more bytes, for ever if nothing else is sent, and if something else is sent, for another request, its beginning becomes the body of the response. The server does not know the rule either: what it writes is what the handlers answered, read by this rule, if they return no body with such a status. Otherwise a conforming client finds the body of the first such response where the next response should begin, and if this body is itself a response, takes it for the answer to the next request.", "quantifier": "all procedures, requests, statuses, headers, bytes sent by servers, orders of results of input and output; all servers, events on a connection, handlers and answers", "why_tests_cant": "tests use a few statuses between htrpc's own client and server, which agree with each other; the claim is about every other conforming client and server", "anchors": ["src/client.rs: CallInner::poll", "src/serializers/rpc_response.rs: RpcResponseSerializer::finish", "src/server.rs: HandleHttpRequest::poll_impl"]}
{"id": "C132", "title": "Which connection the next call gets, and servers that close connections", "statement": "Let a program call one address through a pool (of size at least one) whenever the calls before have ended and the pool has handled everything, and let no attempt to connect fail. Then a call gets the connection of the call before it if that has got a response, whatever this response says, and a new one otherwise; it never ends by itself without having got one. So one connection is enough for all calls if the server answers all requests on it. But if the server answers the first request on each connection and closes the connection then, as it may (with the header Connection: close, which the pool does not look at), no call that is given an idle connection gets a response, also with calls at the same time and to several addresses, and of calls one after another every second fails: exactly those with an odd number, counted from zero, get no response.", "quantifier": "all pool sizes, procedures, arguments, numbers of calls (below 2^64), orders of polls and of the pool's steps, results of input and output", "why_tests_cant": "tests make few calls, against htrpc's own server, which keeps connections open; the pattern is a property of all executions", "anchors": ["src/pool.rs: RpcClientPool::acquire_connection", "src/pool.rs: RpcClientPool::release_connection", "src/pool.rs: Call::poll"]}
{"id": "C133", "title": "Clients that wait before they send a body", "statement": "A client may hold back the body of a request, or a part of it, until the server says something (as with Expect: 100-continue, where RFC 7231, 5.1.1 obliges the server to answer). A server of htrpc whose read_body wants the whole body says nothing before the body is complete, whatever the headers of the request ask for and whatever has happened on the connection before. So neither goes on: for all time nothing else arrives on the connection, at most the requests before this one are answered, and no handler is called for it.", "quantifier": "all servers, requests before, heads, parts of bodies, schedules of the connection and of the handlers", "why_tests_cant": "that something never happens is a claim about all schedules of unbounded length", "anchors": ["src/server.rs: RpcServerBuilder::register", "src/server.rs: HandleHttpRequest::poll_impl"]}
{"id": "C134", "title": "Attempts at a dead server are rationed", "statement": "If at no time more than k calls to an address are without connection (waiting for the pool or connecting), then at most k attempts to connect to it fail per period of suspension: while the clock of the pool goes from t to t' and suspensions last at least d, at most k * ((t' - t) / d + 1), however many calls are made, dropped or completed to this and other addresses, and in whatever interleaving; it does not matter whether the pool has handled the report of a failure when the next call is made. The bound is reached for all k and any number of periods. And once a failure was reported at time t and no call is connecting any more, no call to the address gets a connection, and none is attempted, at any time before t + d.", "quantifier": "all executions of a pool and its calls with a clock that does not go backwards, all addresses, all k, d, t and t'", "why_tests_cant": "a bound on the number of attempts over any number of calls, periods and interleavings", "anchors": ["src/pool.rs: RpcClientPool::handle_command", "src/pool.rs: PooledConnection::poll", "src/pool.rs: PooledRpcClient::call"]}
{"id": "C135", "title": "A suspension ends on time", "statement": "When the pool answers a call, it rejects it only if a report that the call's address cannot be connected to was handled before, and the answer comes earlier than the time of the last such report plus the duration of suspensions that was set then (60 s unless set otherwise); this needs no assumption about the clock. If the clock does not go backwards this is also sufficient: exactly the calls answered before that end are rejected, so each call answered later gets an idle connection or makes an attempt to connect. Changing the duration affects later reports only; what happens to other addresses, and calls rejected in between, do not prolong or shorten a suspension.", "quantifier": "all executions of a pool and its calls, all calls and addresses, all times at which the call is answered", "why_tests_cant": "the last report may lie any number of commands back, under any interleaving with other calls, addresses and changes of the duration", "anchors": ["src/pool.rs: RpcClientPool::handle_command", "src/pool.rs: RpcClientPool::set_suspended_duration"]}
{"id": "C136", "title": "Hosts do not disturb each other in a pool", "statement": "What a pool answers to the events about one host (acquisitions, releases and reports of failures, for addresses with the same IP address and port) is what it would answer if no other host had ever been used, as long as the pool does not become too small: if no connection is closed for want of room, then all answers are equal, including which idle connection is handed out. Which acquisitions are rejected never depends on other hosts, whatever the size of the pool is. The condition is needed: in a pool of any size n > 0, one connection to a host followed by n released connections to another one makes the next call to the first host open a new connection.", "quantifier": "all histories of commands of a pool of any size, all addresses", "why_tests_cant": "compares two runs of any length: the history and the part of it that is about one host", "anchors": ["src/pool.rs: RpcClientPool::handle_command", "src/pool.rs: RpcClientPool::release_connection"]}
{"id": "C137", "title": "No more connections to an address than calls to it at a time", "statement": "If at no time more than k calls to an address are unfinished (made, and neither ended nor dropped), then at no time more than k connections to that address are open, counting those that are idle in the pool, those that calls use, and those on the way back to the pool. So a program that makes its calls to a server one after the other uses one connection to it at a time, without any wait between the end of a call and the next one. This does not depend on the size of the pool, on calls to other hosts, or on which calls fail, are rejected or are dropped. So the number of connections ever opened to the address is at most k more than the number of those that were closed: after the first k a connection is opened only to replace one that was closed. It is assumed that the addresses called on that IP address and port do not differ in scope or flow information: otherwise the pool passes over idle connections (C48) and the bound is exceeded.", "quantifier": "all executions of a pool of any size and its calls, all addresses, all k", "why_tests_cant": "every order of commands, calls, failures and drops, for any number of calls; in particular a call made before the pool has taken back the connection of the call before it", "anchors": ["src/pool.rs: RpcClientPool::handle_command", "src/pool.rs: Call::poll", "src/pool.rs: RpcClientPool::acquire_connection"]}
{"id": "C138", "title": "The life of a server", "statement": "Apart from what happens on its connections, the future of a server does exactly this: it waits until its address is bound; if binding fails it fails with kind Other, and nothing more happens; otherwise it logs the start once and gives every client that the listener reports a connection of its own, in their order, until the listener fails or ends; then it fails once, with kind Invalid if the listener ended and Other if it failed, and accepts nobody any more. So it never completes without an error, never starts twice, accepts nobody before the start or after the end, and every connection is that of one accepted client.", "quantifier": "all sequences of events of the listener and of connections", "why_tests_cant": "every interleaving of listener events with the events of any number of connections", "anchors": ["src/server.rs: RpcServer::poll", "src/server.rs: RpcServerBuilder::start"]}
{"id": "C139", "title": "First come, first served", "statement": "A pool serves calls in the order in which they were made, whatever their addresses are: while a call waits for the pool, no call made after it has got anything from the pool, neither an idle connection nor leave to connect nor a rejection; it waits too, unless it was dropped, or failed because the pool is gone. So a later call never takes an idle connection that an earlier one could have had.", "quantifier": "all executions of a pool of any size and its calls, all pairs of calls", "why_tests_cant": "every interleaving of calls, commands, drops and network events, of any length", "anchors": ["src/pool.rs: RpcClientPool::poll", "src/pool.rs: RpcClientPoolHandle::call"]}
{"id": "C140", "title": "Registration order cannot be observed", "statement": "The order in which services are registered makes no difference to anyone who talks to the server: if every call of `register` succeeded, then in every other order every call succeeds too, and for every history of clients, bytes, closed connections and handler answers the server has the same effects and gets to the same state. Nor does a call of `register` that failed because the method and the entry point were taken: the server does what it would have done without it.", "quantifier": "all lists of services, all their permutations, all histories of the server with any number of connections", "why_tests_cant": "all permutations of all tables, against every sequence of events of every length", "anchors": ["src/server.rs: RpcServerBuilder::register", "src/server.rs: HandleHttpRequest::poll_impl", "src/router.rs: RouterBuilder::register_handler"]}
{"id": "C141", "title": "A larger pool is never worse", "statement": "Let two pools of different sizes get the same commands in the same order (acquisitions, returns and reports of failures, at the same times; only the connections that are returned may be others). Then the larger one rejects the same acquisitions, hands out an idle connection whenever the smaller one does, and closes a connection for want of room only if the smaller one does so at the same moment; so in total it makes its callers open at most as many connections and closes at most as many. (There is no anomaly as with first-in-first-out caches.) This holds if no two addresses differ in IPv6 scope or flow information only; otherwise a pool of size two can open a connection where a pool of size one reuses one.", "quantifier": "all pairs of sizes, all histories of commands", "why_tests_cant": "every history of commands of any length against every pair of sizes", "anchors": ["src/pool.rs: RpcClientPool::with_pool_size", "src/pool.rs: RpcClientPool::acquire_connection", "src/pool.rs: RpcClientPool::drop_exceeded_lru_connections"]}
{"id": "C142", "title": "Idle connections are used in turn", "statement": "The connections to an address form a queue: the idle connections that calls to an address are given are among those that calls to it have put back, in the same order, and each at most as often as it was put back. At every moment the connections that wait to be used again are exactly the ones put back last; all that were put back before them have been given to a call or closed. So as long as a pool is used none of its connections is passed over while others are used again and again, and of the idle connections to an address the one that has been idle longest is the next to be used or closed.", "quantifier": "all executions of a pool of any size and its calls, all addresses", "why_tests_cant": "every interleaving of calls, commands, drops and network events, of any length", "anchors": ["src/pool.rs: RpcClientPool::acquire_connection", "src/pool.rs: RpcClientPool::release_connection", "src/pool.rs: ConnectionId"]}
{"id": "C143", "title": "How many handlers run at a time", "statement": "On each connection of a server at most one handler runs at a time: a handler is called only after the reply of the handler called before on this connection has arrived. Over the whole server at no moment do more handlers run than there are connections that have been accepted and have not ended. Beyond that the server sets no limit: if a request can reach a handler at all, then for every number there is a history in which so many handlers run at the same time.", "quantifier": "all server configurations, all interleavings of clients and connections of any length, all numbers", "why_tests_cant": "every interleaving of any number of connections; that there is no limit is a claim for every number", "anchors": ["src/server.rs: RpcServer::poll", "src/server.rs: HandleHttpRequest::poll_impl"]}
{"id": "C144", "title": "Services under a prefix", "statement": "If the entry points of all services of a table get the same constant segments in front, the same registrations succeed, a request whose path has these segments in front is answered as the request without them was before, and all other requests get 405 if their path ends on the way to the prefix and 404 if not. Services whose entry points begin with different constants do not influence each other: as soon as one entry point begins with the constant a, every request whose path begins with a is answered as if only the services that begin with a were registered, and whether a service can be registered below a depends only on those below a.", "quantifier": "all tables of registrations, all prefixes of any length, all requests", "why_tests_cant": "tests try a few tables and paths; that services do not influence each other is a claim about all tables", "anchors": ["src/router.rs: RouterBuilder::register_handler", "src/router.rs: Trie::insert, TrieNode::get_child", "src/server.rs: RpcServerBuilder::register"]}
{"id": "C145", "title": "After a response a connection is as good as new", "statement": "Requests on the same connection of a server do not influence each other: as soon as a response has been written, everything that is observed on the connection from then on - requests read, handlers called, responses written, how the connection ends - is what would be observed in the same circumstances on a new connection on which the bytes have arrived that have arrived here and have not been read yet. It does not matter how many requests there were before, of what method, to which procedures, and whether they were refused.", "quantifier": "all server configurations, all histories of a connection up to a written response, all continuations", "why_tests_cant": "tests compare a few sequences of requests; independence of the past is a claim about all pasts and all continuations", "anchors": ["src/server.rs: HandleHttpRequest::poll_impl", "src/server.rs: HandleHttpRequest"]}
{"id": "C146", "title": "Pure procedures and replicated servers", "statement": "If the read_body and the handlers of procedures are functions of what they are given, and all servers have the same services, then calls are functions too: two calls of the same procedure with the same request that complete have the same result (response and body), also if the servers refuse the request. It does not matter at which of the servers and over which connections they are made, whether connections are new or reused, when they are made, by which programs with which pools, how the bytes are divided, and what all the other calls do. So servers can be replicated behind several addresses without the callers noticing.", "quantifier": "all server configurations, all handlers that are functions, all pairs of executions of pooled clients and servers with any pool sizes and calls whose requests and responses HTTP can express", "why_tests_cant": "a relation between any two executions", "anchors": ["src/client.rs: Call::poll", "src/pool.rs: RpcClientPool", "src/server.rs: HandleHttpRequest::poll_impl"]}
{"id": "C147", "title": "A pool in which nothing is left is as good as new", "statement": "A pool remembers nothing but idle connections, suspensions and the duration set last: if as many connections have left a pool, given to callers or closed for want of room, as have been returned to it, and the suspensions are over whenever their addresses are asked for, then everything from then on is answered - connection given, connection to be opened, rejected, connections closed - exactly as by a new pool of the same size in which the same duration has been set. This does not depend on how many connections were handled before. If not all returned connections have left, the pool can be told from a new one: there is an address for which it gives an idle connection.", "quantifier": "all pool sizes, all histories of commands before and after, all clock readings and durations", "why_tests_cant": "tests start with new pools; that no residue of a long history can be observed later is a claim about all pairs of histories", "anchors": ["src/pool.rs: RpcClientPool::acquire_connection", "src/pool.rs: RpcClientPool::release_connection, drop_exceeded_lru_connections", "src/pool.rs: RpcClientPool::handle_command"]}
{"id": "C148", "title": "A pool treats all addresses, connections and times alike", "statement": "Which address is asked for, which number a connection has and what time it is never matters to a pool by itself: if in a history of commands all addresses are replaced by others, so that different addresses stay different and the same ones share IP address and port, all connections by any others, and all clock readings are later by the same amount, then the answers are the same up to these replacements. So no address is preferred, although the pool keeps its connections sorted by address, and only differences of times count. The only exception are suspensions that would end after the last time which can be told: these panic. The same holds for the calls that use the pool: with a clock that is ahead the same happens to the same connections and every call comes equally far with the same result.", "quantifier": "all replacements, all pool sizes, all histories of commands; for the clock all executions of calls and pool", "why_tests_cant": "tests use a few addresses and the current time; that the order of addresses in the map is not observable is a claim about all addresses", "anchors": ["src/pool.rs: ConnectionId, impl Ord for ConnectionId", "src/pool.rs: RpcClientPool::acquire_connection", "src/pool.rs: RpcClientPool::handle_command", "src/pool.rs: impl Future for Call"]}
{"id": "C149", "title": "Segments and methods are compared, never interpreted", "statement": "Routing knows nothing about segments and methods except which are equal: if in a table of services all constants and all methods are replaced by others, different ones by different ones, and all handlers by any others, the same registrations succeed and a request with the replaced segments and method gets the handler in place of the one before, or the same error. So there is no case folding, no special segment (such as an empty one or a dot segment) and no special method (such as HEAD being served by GET). And a segment of a path that is a constant of no entry point is as good as any other such segment at every position.", "quantifier": "all tables of registrations, all injective replacements, all methods and paths", "why_tests_cant": "tests try a few segments; that no segment or method is treated in a special way is a claim about all of them", "anchors": ["src/router.rs: Router::route", "src/router.rs: Trie::insert, TrieNode::get_child", "src/router.rs: RouterBuilder::register_handler"]}
{"id": "C150", "title": "What decides which acquisitions are rejected", "statement": "Which acquisitions a pool rejects is decided by the reports of failed connection attempts, the durations set and the clock alone: it depends neither on the size of the pool nor on connections being returned to it. If longer durations are set in otherwise the same history, every acquisition is rejected that was rejected before. If the clock does not go back and one duration is set, further reports of failures only add rejections.", "quantifier": "all pool sizes, all histories of commands, all durations and clock readings", "why_tests_cant": "tests look at single suspensions; monotonicity and independence relate all pairs of histories", "anchors": ["src/pool.rs: RpcClientPool::handle_command", "src/pool.rs: RpcClientPool::set_suspended_duration"]}
{"id": "C151", "title": "How much work calls make for their pool", "statement": "A call sends its pool one command when it is made, and at most one more when it ends: a connection it puts back or a failure to connect it reports. So as long as the pool lives, the commands it has taken and those still waiting for it are together exactly the calls made, the connections put back and the failures reported, and never more than two for each call, of which at most one for a call in progress. No work for the pool comes from anywhere else.", "quantifier": "all pool sizes, all executions of a pool and its calls", "why_tests_cant": "a test counts the commands of one execution; a duplicated or forgotten command shows only in particular interleavings of polls, drops and steps of the pool", "anchors": ["src/pool.rs: RpcClientPoolHandle", "src/pool.rs: impl Future for PooledConnection", "src/pool.rs: Call"]}
{"id": "C152", "title": "Why connections are closed", "statement": "As long as a pool lives it and its calls close connections for two reasons only: a call failed or was dropped, which costs at most one connection each (also if the call was dropped while it waited for the pool, which then takes an idle connection for it in vain), or more connections were opened than the pool may keep. So the number of connections closed is at most the number of calls that failed or were dropped, plus the number by which the connections opened exceed the size of the pool; and if all calls that ended got a response and not more connections were opened than the size of the pool, none is closed: neither time nor idleness closes a connection. At any time, also after the end of the pool, the connections opened are exactly those closed and those that are idle, on their way back to the pool or with a call.", "quantifier": "all pool sizes, all executions of a pool and its calls", "why_tests_cant": "a leaked or needlessly closed connection shows only in particular interleavings; the bound relates counts over executions of any length", "anchors": ["src/pool.rs: RpcClientPool::handle_command", "src/pool.rs: RpcClientPool::release_connection", "src/pool.rs: Call"]}
{"id": "C153", "title": "The order in which an executor runs calls and their pool", "statement": "What happens to two different calls (they are polled, or dropped) can happen in either order: each has the effects it would have alone, and everything is the same afterwards, unless both put something into the queue of the pool (a connection put back, a failure reported) or both open a connection. In the same way, what happens to a call that has its answer from the pool can come before or after the pool handles its next command, whatever both do, as long as the pool has a command and survives it; and what happens to a call that puts nothing into the queue can come before or after another call is made. So two executions that differ in such an exchange end in the same state, and the same effects occur in them. In the excepted cases the order can make a difference: two reports reach the pool in the order of the polls, and a call that waits does nothing if it is polled before the pool has answered it.", "quantifier": "all states of a pool and its calls, all pairs of such events, all results of I/O", "why_tests_cant": "tests run one schedule of the executor; this is a claim about all pairs of schedules that differ in one exchange", "anchors": ["src/pool.rs: Call", "src/pool.rs: impl Future for RpcClientPool", "src/pool.rs: impl Future for PooledConnection"]}
{"id": "C154", "title": "Polling a call although nothing has happened", "statement": "Polling a call whose I/O is not ready changes something exactly if there are news for it from its pool: an idle connection, a rejection, or that the pool is gone. If there are none, the poll changes nothing about the call, the other calls, the pool, its queue and the connections, and has no effect but possibly one more attempt to read or write; so an execution from which such a poll is left out ends in the same state with the same effects otherwise. In particular polling twice in a row is the same as polling once: a call may be polled as often as an executor or a combinator likes.", "quantifier": "all states of a pool and its calls, all calls, all executions before and after the poll", "why_tests_cant": "tests poll under one executor; this is about superfluous polls at every point of every execution", "anchors": ["src/pool.rs: Call", "src/pool.rs: impl Future for PooledConnection", "src/client.rs: impl Future for CallInner"]}
{"id": "C155", "title": "Calls that are dropped while they wait", "statement": "Whatever happens after a call that waits for its pool has been dropped is what would have happened had the call been left alone and never polled: the pool, its queue, the number of connections opened and all other calls are the same at every time, and so are the effects, in the same order, with one exception: an idle connection that the call would have been given is closed. So the pool does not notice that a call is gone, and an abandoned call still costs its pool an idle connection to its address if there is one, but no more. Polling or dropping the call again does nothing.", "quantifier": "all states of a pool and its calls, all calls that wait, all continuations", "why_tests_cant": "this compares two executions for every continuation; tests see one of them", "anchors": ["src/pool.rs: handle_command", "src/pool.rs: impl Future for AcquireConnection", "src/pool.rs: Call"]}

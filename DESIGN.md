# A formal model of sile/htrpc in Lean 4

## 1. What is modelled

The model lives in `lean/Verif/Model/`, one module per source area. Every definition cites the
file and lines in `/repo` it models.

| Model module | Code | Content |
|---|---|---|
| `Basic` | `src/error.rs` | `Res` (value, error of a kind, panic), text and bytes |
| `Text` | std `to_string`/`parse`, UTF-8 | decimal, boolean, UTF-8 text of values |
| `Serde` | serde data model | `Val` (what a `Serialize` impl emits), `Ty` (what a derived `Deserialize` asks for), typing |
| `Url` | `url` crate, `src/misc.rs` | percent encoding, `PathSegmentsMut::push`, `path_segments`, form encoding, relative parsing |
| `Entry` | `src/procedure.rs` | entry points |
| `PathSer`, `QuerySer`, `HeaderSer`, `ReqSer`, `RespSer` | `src/serializers/*` | the five serializers |
| `ValEq`, `Visit` | serde's derived visitors | equality of keys; struct, map (with insertion), sequence and enum visitors over an abstract input |
| `PathDe`, `QueryDe`, `HeaderDe`, `ReqDe`, `RespDe` | `src/deserializers/*` | the five deserializers together with the visitors |
| `Status` | both status tables | status names and codes |
| `Router` | `src/router.rs` | trie: registration and routing |
| `Json`, `Problem` | `src/rfc7807.rs` | JSON values, problem documents, problem responses and their status |
| `Embed` | `src/json.rs`, `src/json_pretty.rs`, `src/msgpack.rs` | fields embedded as JSON or MessagePack text |
| `Server` | `src/server.rs` | one connection as a state machine over events; the server over all connections |
| `Client` | `src/client.rs` | the state machine of one call |
| `Pool` | `src/pool.rs` | the connection pool: commands, eviction, suspension |
| `PoolSystem` | `src/pool.rs`, `src/client.rs` | pool, queue, handles, calls and connections with arbitrary interleaving |
| `PoolTimed` | `src/pool.rs:116-146,194-203` | the same with the timeout of connecting |
| `Http` | (miasht) | HTTP/1.1 messages as bytes; an instance of the contract `Wire` |
| `Limits` | `src/server.rs:151`, `src/client.rs:36-41` | the limits on the head of a request; with them another instance of `Wire`; any limits on the head of a response |
| `Chunked` | (miasht), `src/lib.rs:21-33` | bodies in chunks; with them another instance of `Wire` |
| `JsonText` | (serde_json) | JSON documents as text; an instance of the contract `JsonText` |
| `FloatStd` | (std) | the text of floats; an instance of the contract `LawfulFloatText` |

Specifications that are independent of the model's helpers are in `lean/Verif/Spec/`; helper lemmas
in `lean/Verif/Lemmas/`; the property theorems (`Cnn_...`) in `lean/Verif/Props/`, together with
concrete cases that meet their hypotheses (`example`; for the server and HTTP in
`Props/ServerExamples.lean` and `Props/HttpExamples.lean`). `Lemmas/Toy*.lean` show that every
assumed contract has an instance. `Props/OwnTests.lean` runs the unit tests and the documented examples of
the code on the model (the outputs that its authors have written down are those of the model).

Not modelled: logging (`slog`), the text of errors (kinds are), `Display`/`Debug`
impls, the fibers executor and its scheduling (events happen in any order instead), TCP, DNS,
bodies that end with the connection, the `derive` macros of the user (any `Val` and `Ty` instead), panics of user
code. The overflow of the pool's sequence number and of the end of a
suspension (a `SystemTime` counts seconds with 64 bits and a sign, as on 64-bit Unix; clock readings are
not before 1970) are modelled as panics; the theorems about the pool alone assume histories without them
(`NoOverflow`, exactly those in which it does not panic), those about calls through a pool do not.

## 2. Plan per property

Shapes: R = round trip/algebraic law, I = invariant over histories, S = refinement to a
specification, D = decision logic, N = negation with witness (the code violates the full
statement) together with the part that holds.

| Id | Shape | How |
|---|---|---|
| C01 | S | consequence of C02: what the specification dispatches to matches |
| C02 | S | trie = narrowing specification on the list of registrations, via an exact description of the nodes of the trie after any insertions |
| C03 | S | the specification is invariant under permutation of conflict-free lists |
| C04 | I | description of `insert` in its two outcomes |
| C05 | N | witness `[a,x]`, `[_,y]` and path `a/y`; positive part under no-shadowing |
| C06 | R | path round trip + URL parser + router |
| C07, C08, C10 | R/N | exact text of the pushed path; `path_segments` recovers it; exact result of the decoder |
| C08 (exact) | S | each push adds one segment or loses one, induction from the end of the list (`Lemmas/Shape`) |
| C09 | D | induction over the argument list; elements that are no scalars are rejected inside of a tuple |
| C11 | I | invariant: variable counter = number of variables left |
| C12-C18 | R/N | form encoding inverse, then the derived struct visitor as a loop over the pairs |
| C14, C15, C17, C60 (all queries) | S | the loop over the row of names and values = the struct visitor over the parameters as they are really read (`Spec.effective`) |
| C19-C22, C61, C62 | R/N | same visitor over headers |
| C23-C26 | D/N | induction over the field list |
| C27 | R | composition |
| C28 | R | whole table, lifted |
| C29-C33 | R/N | composition of response serializer and deserializer |
| C34-C36 | R/N | JSON value level |
| C37-C42 | S/I | a connection as a state machine over events; every history of it is a transcript of a per-request specification (`Spec.Transcript`) |
| C43 | I | simulation between the bytes left in the stream and the messages left (`Lemmas/Sync`) |
| C44 | I | projection of the run of the whole server to one connection |
| C45, C48, C49, C50, C54 | S/I | pool as a list of (seq, addr, conn), refinement to an abstract FIFO of idle connections |
| C46, C47, C51-C53 | I | one invariant over the system model (`Lemmas/PoolInv`), facts about histories (`Lemmas/PoolHist`) |
| C55 | I | call state machine over arbitrary poll results |
| C56, C57 | R/N | codec as a parameter; query, header and request decoders extended by embedded fields |
| C58 | I | all decoders, all types: a weakest precondition over `Res` (`Res.Sat`) |
| C13, C59, C64 (all paths) | S | every pushed path is the path of a list of segments that keeps its shape (`Lemmas/Pushed`) |
| C59, C60, C64 | R/N | exact texts and exact readers |
| C63 | S | decoder = list of variable segments, read one by one, for every type (tuple, sequence, single value); surplus variables ignored |
| C65 | S | composition of C27, C29, C37, C39, C43, C55 |
| C66 | I | invariant of the serializer state: only safe characters (`Lemmas/Target`) |
| C67 | R/N | reader of HTTP heads inverts the writer on safe headers; a line break in a header value starts a new request |
| C68 | S | C65 over the instance `Http.httpWire` |
| C69 | D | induction over all values: single, omitted or rejected (`Props/Accept`) |
| C70, C71 | S | the map visitor = reading all entries and inserting them one after the other (`Lemmas/Maps`) |
| C72–C74 | S | whatever is accepted was written as entries or segments (C69) and is read from them (C63, C70), so value and result can be compared text by text (`Spec/Integrity`: what can become of a value); a text that is read as a value of the sender's type gives that value |
| C75, C76 | S | a request or response that is sent consists of parts (C23, C31), each read by its own deserializer; C72–C74 for each part |
| C77 | S, I | C43 gives the n-th request and its body, C67 its bytes, the routing theorem (C01) the entry point, C75 and C76 the parts; no restriction to the values of C68 |
| C78 | S, I | the pool system (C46) also logs what each call writes and reads on which connection; an invariant of all executions says that connections in the pool or on their way to it are between two exchanges, and a connection in use is as far as its call |
| C79 | S, I | C78 on the client side and C77 on the server side, joined by the bytes of the connection; by induction over the exchanges the n-th response is read where the n-th request was written |
| C80 | S, I | the state of a call is ranked (waiting, replied, writing, reading head, reading body, finished); no event of the pool system (C46) lowers the rank and each result a call waits for raises it; for success the states on the way are given exactly, using C51 (only failed attempts suspend) and C53 (waiting calls are answered) |
| C81 | R/N | a concrete JSON codec (`Model/JsonText`, serde_json's rules for escapes, indentation, numbers, depth); the reader inverts the writer by induction over documents, for any text behind them; the characters of a text are followed through the writer; C67 tells which header values arrive |
| C82 | R/N | `Spec/Reads` states one rule for each kind of declared type, without the state of a deserializer; the deserializer is shown to compute the same by induction over the type and, for structs, over the parts in the order in which they are visited; C01, C25 and C43 tell when a handler is called |
| C83 | R/N | the same for responses, where the state of the deserializer (status still to be read or not) is a parameter of the rules; C55 tells when a call completes |
| C84 | I, S | the simulation of C43 carried on: a connection in order (`Lemmas/Live`) is in a phase whose awaited result is possible with the bytes that are there; each such result adds to the log, which is bounded by five entries for each request; so a fair infinite execution answers all. What follows the requests need not be known: until all are answered, the bytes behind them are not looked at (`Calm`, `C84_whatever_follows`) |
| C85 | R/N | `Spec/Target` and `Spec/Form` describe a target by what it is composed of: pieces between separators, dot segments removed from the right, escapes, UTF-8 with replacements. The functions of the model are shown to compute the only such reading (`Lemmas/Origin`, `Lemmas/Form`, `Lemmas/Lossy`); C02 and C82 tell what is done with it |
| C86 | I | no segment that is left after resolving is a dot segment; every text in a path argument is a decoded segment (`Lemmas/Dots`) |
| C87 | I, S | `Spec/World` puts infinite histories of clients, network and servers side by side, linked at every time as in C79. A call that never leaves a stage stays in one state (`Lemmas/World`); then nobody else uses its connection, so its request arrives and is answered (C84), what it waits for is offered from then on, and fairness contradicts. Nothing but the response decides how it ends, which C79's facts identify |
| C88 | I, S | `RequestText` is the grammar of requests. Reading its text line by line gives the request back for all spacing, and conversely each read line is of that form, since reading UTF-8 and trimming can be undone (`Lemmas/Interop`). With C84 every such request ends as a finished exchange, whose verdict C85 knows and whose body C43; the responses are read as in C67 |
| C89 | R/N | the functions of the rules (`readArg`, `readText`, `readBytes`, `unescape`, `readStruct`), which C63, C15 and C82 relate to the decoders, are equivalent to relations that mention no parser but that of floats |
| C90 | I, S | no call sends two requests (C78), each call of a handler belongs to one request of its connection (as in C79), and connections are used for the address they were opened to only |
| C91 | R/N | `Spec/JsonGrammar` is the grammar as inductive relations between texts and documents. The reader accepts only what the grammar has (induction over the recursion depth) and all of it, whatever follows (induction over derivations); C89 tells how fields are found |
| C92 | R/N | `Spec/TargetForms` has the four forms of a target; `C92_scheme` relates the scheme parser to its definition, and the rest is a case distinction. What hosts and `file:` mean stays open (the oracle of §2), so nothing is said about them but that the oracle decides |
| C93 | R/N | The counterpart of C88. `ResponseText` in `Spec/Callee` is the grammar; `readStatusLine_iff` and the lemmas of C88 relate the reader of `Model/Http` to it in both directions; `hear` is what the phases of a call get from the bytes that have arrived, and C55 and C83 do the rest |
| C94 | I | The request's parts are stated by `PathTexts` and `QueryEntries` (`Spec/SentTarget`), the reading of the target by `TargetOf` (`Spec/Target`, the rules of C85), neither of which mentions the serializers or the parser. `sent_target` joins the exact lemma on pushed segments (`shape_iff`) and the round trip of forms with C85; `C94_unique`: there is no other reading |
| C95 | I | What a call has done on connections is read off the wire log of C78 by `byCall` (`Spec/Errors`), with `Answered` and `Unanswered` for the possible extents. `told_reach` is an invariant over all runs that gives, for every state of a call, what it has done so far; the theorems read off the final states. `C95_kind`: for a request that can be expressed the kind of the error says whether a complete response was read |
| C96 | I | `Consumed` (`Spec/Consumed`) cuts the received bytes into heads and parts of bodies, one request behind another, without the states of the server. `ReadSoFar` is the invariant per phase, over all events and without assumptions on the peer or on `read_body`. `CutWire` is what is needed of the transport, shown for HTTP by `Http.cutWire`. `C96_unread` shows that the next request begins where `read_body` has stopped; `C96_early` that a handler is called before its body has arrived if `read_body` does not want it |
| C97 | I | Open connections are those of the log that were opened and not closed; by C46 they are in the places of the state, each in one. `Within` is the invariant that the pool keeps its size over all events of the system (a pool whose counter overflows is dropped, so no bound on their number is needed); a call in progress has at most one |
| C98 | I, S | `Model/FloatStd` is a concrete `FloatText`: bits of IEEE 754, decimal text with the fewest digits that are read as the bits, rounding by search over the bits. `stdFloat` proves that it meets the contract `LawfulFloatText`, so that every theorem that assumes the contract holds of it. The twofold rounding of an `f32` is innocuous because the text of the `f64` lies closer to it than half a step of the `f32` |
| C99 | I, S | `FloatReads` (`Spec/Floats`) gives grammar and value over the rationals, with the distance to all other numbers of the format in place of an algorithm; both directions |
| C100 | R, S | from `C02_exact_dispatch` by a characterisation of the two tables (`Spec/Deploy`); `Captures` says which paths run into the new branch, without the model of the trie |
| C101 | I, S | `RequestGrows`, `ResponseGrows` (`Spec/Evolve`) relate two versions of a type; proved on what is read (C82, C83) and end to end on C27; `C101_value_like_name` shows that the condition on values is needed |
| C102 | S | C37 gives what the server writes, `reads_good` what the client reads of it (C67), C32 what its type makes of it; `C102_head` over the concrete codec of C81 |
| C103 | I | `shortest_found`: the search of `FloatStd.shortest` goes from coarse to fine steps of ten; `nearest_between` makes the numbers read as the same bits an interval, so that the two steps around the exact value decide whether a step has a candidate; `C103_unique` by the digits |
| C104 | I | The invariant of C43 and C84 with bytes behind the requests in which no head is found (`NoHead`): `C104_unread` and `C104_ends` over any transport. For HTTP `C104_http` derives this from the grammar of C88 |
| C105 | I, N | `Model/Limits` puts the limits of src/server.rs:151 on the reader of `Model/Http`; the result is again a lawful transport (`serverWire`), so that the theorems over any transport apply: C84 and C85 to requests that fit, C104 to what does not. `C105_as_without` is a simulation: step by step the limited connection does the same or fails. `C105_client` relates this to what a client writes |
| C106 | I, N | `Splits` (`Spec/Stream`) is written from the grammar of C88 and the limits of C105; `C106_splits` and `C106_splits_once` by induction on the length and since a text begins with at most one head. The four cases: C105 for a rest without a head; for a head without the length of its body the transport that refuses such heads (`delimited`) behaves in the same way up to that head, so that C104 applies; a part of a body is filled up to a complete request, which C104 describes, and `C106_cut_off` shows that it is not finished. Transfer encodings are not modelled, a head with one counts as one without a length |
| C107 | S, I, N | C78 tells how calls take turns on a connection; what each exchange reads off is a text of the grammar of C93 (`C93_only`), and by the same reader the texts are unique. That all calls have different requests (C90) gives the place of the response; `C107_early` is the same theorem looked at from the time before the request is sent |
| C108 | R, S | `C108_path`, `C108_query`, `C108_headers` are equivalences between "the receiver gets the value that was sent" and an inductive description of the value (`PathIntact`, `QueryIntact`, `HeaderIntact`, Spec/Exact.lean) that mentions neither serializer nor deserializer; `C108_request` puts them together for whole requests of any shape (`RequestIntact`): besides structs and newtypes of structs the serializer also takes variants, which no deserializer gives back. From left to right each is a proof that every value outside of the class is changed or refused, so the classes of C07, C12, C19 and C27 cannot be extended. Excluded are only NaN (the bits may differ, C72) and, for headers, map types (C73) and a field `content-length` (C75). |
| C109 | I, S | Serializer and deserializer of responses (`Model/RespSer`, `Model/RespDe`) against the class `ResponseIntact` of Spec/Exact. By induction on what is sent (`SentResponse`, C76), using C108 for the headers. An equivalence, so both halves of C29/C76 are sharp: every response outside of the class is changed or refused. Types must have distinct names and no header field called `content-length` (as in C76). |
| C110 | I, S | C108 and C109 over the bytes of `Model/Http` with the limits of `Model/Limits` and the routing of C02: `Delivered` and `Returned` (Spec/Transparent) say what the two sides read, whatever follows; `C110_server` says the same of a step of a connection that waits for a request. That HTTP can express the headers is shown to be necessary too: what is read from a head is always expressible, and the headers with which a value is sent are those from which the same value can be read (`Lemmas/ReadBack`), so an inexpressible header can never give the same value by accident. Header types must not name `content-length` and `transfer-encoding`, which describe the body. |
| C111 | I, S | C110 for the connection state machine of `Model/Server` with `serverWire`, and for the calls of `Model/Client`. Only-if: what arrives is split into requests (C106), the request at this place is the first of the rest, and its head and verdict are those of C110. If: C105 and C84 with the request appended to those before it. The theorem for responses takes any block of a log of the server and any run of a call that hears what was written for it. |
| C112 | I, S | `Spec/Landing` says in terms of lists of segments where adding a text to a path leads; the model works on the text of the path. `pieces_pushSegment` relates the two for one push, induction gives the path, and the rules of URLs (`TargetOf`, C85) read it. What a server does with it is C02 on the head that is read, and C106 finds this head on any connection (`C112_called`). The two findings compare the requests of two procedures as values of `serRequest` |
| C113 | I, S | `Spec/Told` names the types whose values are told apart by their texts. Texts of scalars are injective (`told_text`), then fields, maps and paths by induction; the target is read back by the rules of URLs (C94), the head by those of HTTP (C67), so equal bytes are equal targets and headers. `C113_confused` shows for each exclusion two requests of one type that are the same on the wire |
| C114 | I, N | The pool counts what is put back: its sequence number and the releases in its queue are together the returns in the log, over all events (`counting_step`); with the bound on clock and durations no command panics. With a duration that overflows, handling a report panics, so nothing is reported, and by C51 a pool that has handled everything and lives has had no failure to connect. |
| C115 | I, S, N | `PoolTimed` puts a clock and timers over `PoolSystem`; every timed history is an untimed one in which some poll results have become failures (`C115_untimed`), so what is proved of all interleavings holds with the timeout. The deadline of a call that connects is the time at which it began plus the timeout in force then (`deadline_of`, induction on the history; `Began` looks only at the history). Polled at the deadline or later it fails, before it nothing happens. A call that has its connection is not limited. |
| C116 | S, N | Two relations that mention no (de)serializer: `Wider…` between types and `Alike…` between values. Reading: every rule of the reading relations of C82, C83 and C89 is monotone in the type (`param_wider`, `value_wider`, `arg_wider`, …), so the wider type reads an alike value; with the exactness theorems this carries over to `deRequest` and `deResponse`. Writing: the serializers do not distinguish alike values (induction on `Alike`). |
| C117 | S, N | Types: every rule of the reading relations of C82, C83 and C89 yields a value of the type that it is about (`request_typed`, `response_typed`), so what is read has the declared type. Passing on: simple types are described by `SimpleRequest`, which mentions no serializer; all their values are sent (by C69 and the struct lemmas of queries and headers), and the condition of C108 for a request to arrive comes down to: no `true` and a path that passes. |
| C118 | S, N | The response that was read is taken apart by the reading relation of C83: its status is the code, its headers have the declared types (C117). Known statuses are sent (`sent_serResponse`, the converse of the lemma behind C109), unknown ones are refused (C31), and the condition of C109 for a response to arrive comes down to: no `true`. A struct read inside of a newtype variant has no status, so that C31 refuses it. |
| C119 | S, N | What one server does to a request is a function (`garbled`) of it: `C119_hop`, from the exact path and query codecs; a server that finds a `true` rejects the request (`C119_true_stops`). Types, absence of NaN and `true`, and paths that can be carried are invariant under it, so that chains of servers, a relation in `Spec/Chain.lean`, are its iterates, by induction on the chain. The growth counts the bytes of the iterated texts. Responses: by `C76_response` and `C118_passed_back` one server leaves a response as it is or stops it; induction on the number of servers. |
| C120 | S, N | The transcript of a connection (C84) gives what was sent from what was returned; the headers of a problem response can be expressed in HTTP and frame the body, so C67 and the run of a call on bytes (C93) apply to every problem, and C32 says what the client reads. `C120_head` uses the JSON parser of `Model/JsonText`. Unknown statuses: C35. Bare problem responses: C33 and C55. |
| C121 | S | `hearWithin` (`Model/Limits`) is what a call hears through a reader with limits, which are parameters. `response_head` splits a response of the grammar of C93 into head and body, so that the comparison with the limits is one with the length of its text; the rest is C93. |
| C122 | S | `Model/Chunked` adds the decoder of chunked bodies to the readers of `Model/Http`; `ChunkText` in `Spec/Chunked` is the grammar of RFC 7230, 4.1, and `BodyText` says which body belongs to which headers. `readChunks_text`, `readChunks_only` and `readChunks_bad` show that the decoder reads exactly this grammar; so `chunkedWire` is one more lawful transport, and what is shown for every `Wire` applies (also C96, by `chunked_cutWire`). The last part is C93 with this reader. |
| C123 | I | The system of pool, calls and connections of C46, with any events. A call without a response puts nothing back (C52), and a connection goes from one call to another only by being put back (C46): so `C123_each_once`, and the bounds follow by counting, with the number of open connections of C97. `pooled_returned` and `held_got` read the log backwards for `C123_served` |
| C124 | I, N | Over `World` of C87, with the safety part of its hypotheses only (`Honest`). Logs grow, and a block of the log of a server keeps its place and head (`blocks_grow`), so being called is monotone in time and there is a first time; that there is one place for each call is C90. A block with an answer gets no further call (`block_settled`, from the transcript of C84), and a call that completes has an answered block (C79): so all that its handler does lies before. `C124_across` and `C124_linearizable` are about any number of worlds with one clock; for the latter `World.Atomic` is what is assumed of the handlers. `C124_late` is a concrete world |
| C125 | I, N | Every event of the system is some events of the pool alone (`pool_change`, `pool_path`), whose acquisitions come from calls (`acquire_change`); which addresses are kept is then the refinement of C54 with `suspended_run` of C50, and that the blacklist repeats none an invariant. `C125_grows` constructs the executions for any list of different addresses |
| C126 | I | `Sys.run` of C46 against `callRun` of C55. An event that is not a poll or drop of a call leaves it alone unless it waits for a reply (`step_keeps`), and a poll is one round of the plain call (`settle_end`); induction over the events (`asPooled_run`). That a call gets its connection once and with its arguments untouched is an induction from the other end (`unconnected_step`) |
| C127 | I | `ConnState.run` of C37. A machine on which everything has arrived before (`atOnce`, proof only) always does the one thing that can happen; each event of any history either changes nothing or is the next step of that machine, up to the bytes still to come (`later_step`, from the laws of `Wire`). So all histories are beginnings of one sequence (`given_atOnce`), and a fair one goes through all of it (`arrived_reaches`). Handlers are functions of the log of their connection; state shared between connections is C124 |
| C128 | I | From C124: operations take effect between being made and completing, so those of calls made one by one are in the order of the calls. `state_at` (induction over time): the object is always in the state after the operations of an initial part of the calls. With failures the order is that of the effects (`trace_at`). `C128_asked` puts C79 and C90 together |
| C129 | I | `headerValues` (what a value declares) and `Lines` (`Spec/Lines`); the invariants of the two serializers (`HasLines`) hold for values of any shape, `C129_server` lifts them to all responses of a connection by the transcript of C39. `C129_once` counts the lines of one name, `C129_host` is the case of `Host` |
| C130 | I | `Interim`, `FinalOnly` (no variant for a 1xx status), `AnswerText` (interim responses and an answer, as bytes; `Spec/Interim`). `C130_fails`, `C130_final`, `C130_taken` follow from C93; `C130_reused` from the lives of connections (C46, C52) and what goes over them (C78); `C130_own_answer` is the induction along a connection, on C107 |
| C131 | I | `Bodiless` (1xx, 204, 304), `RfcText`, `RfcTexts` (responses as bytes by RFC 7230, 3.3.3, except its rule for `CONNECT`; `Spec/Bodiless`). `C131_one` and `C131_where` rest on C107; `C131_same`, `C131_waits`, `C131_swallows` on C93, as the client takes the bytes that follow for the body; `C131_served`, `C131_left`, `C131_injected` are inductions along the responses that C88 finds |
| C132 | I | `Serial`, `HasResponse`, `HasEnded` (`Spec/Serial`). One invariant of the calls, the pool and its queue (`SerialInv`: where the only connection is, by the state of the last call), kept by every event; `C132_next` reads it off, `C132_idle_useless` follows from C123, `C132_one_connection` and `C132_every_second` are inductions over the calls |
| C133 | I | `HoldsBack` (nothing arrives behind some bytes before there are more than so many answers; `Spec/Expect`). Induction along the events, each time with C106: an answer would have to be to a complete request |
| C134 | I | `unconnected`, `handledAt`, `AtMost` (`Spec/Backoff`). Every event is one of five moves with respect to an address (nothing new, a call, a refusal, a permission to connect, a report; `Move`, `move_step`); over these one invariant (`Stage`): `j` suspensions are over or run, and either no new attempt has begun, or none of the new ones has failed, or one has, and then only the calls made before that can fail in this period, as the report is in the queue before their successors. `C134_reached` constructs the executions for all `k` and `m`; `C134_quiet` is a second invariant over the same moves |
| C135 | I | `lastReport` (`Spec/Backoff`) reads the last report about an address, and the duration set then, off an execution. The invariant `Track` ties it to the entry of the pool's list: an entry is always that of the last report, and it is there until its end was seen by a handled command. What the pool answers depends on the entry only (`handle_answer`). `C135_rejected` needs no clock, `C135_iff` needs one that does not go back |
| C136 | I | `concerns`, `answersFor` (`Spec/Separate`). A simulation (`Alone`) between a pool and one that sees only the events about a host: its idle connections are the filtered ones, its suspensions and duration agree; without surplus every event preserves it. For rejections the part of it that leaves out the connections suffices (`AloneBut`), so no condition is needed. Transferred to `Pool.run` with C54 |
| C137 | I | `unfinished`, `Peak`, `OneScope` (`Spec/Peak`). The connections that there will be are counted ahead: `demand` runs through the queue with the number of idle connections, where each waiting call takes one or makes one and each release adds one; with those of calls (`keeps`) this is `need`, which no event but a new call raises, and a new call raises it only if every idle connection is spoken for, so that `need` is then the number of unfinished calls (`need_call`). The queue is in order of arrival, so a connection put back by a call is there for the next call. Connections are counted with C46 and C47. `C137_total` follows because a connection is opened only once (`opened_nodup`). Examples show that the bound is reached and that `OneScope` is needed |
| C138 | I | `serverLife` (`Spec/ServerLife`) reads off a history of events, without a state, what is to be seen of the server itself: it cuts the history at the first result of binding and at the first stop of the listener after it. `C138_life`: these are the effects of the server, after those of connections are left out; by induction for each phase. `C138_connections`: the connections are numbered in the order of the accepted clients. Added because a mutation of the model (after a failure to bind the server stays in its first phase) was not noticed by C44 |
| C139 | I | `Waiting`, `Unserved` (`Spec/Order`). Invariant `Ranked`: there is a number m such that the calls before m do not wait, those from m on have got nothing, and the acquisitions in the queue are those of the calls m, m+1, … in this order; a handled acquisition raises m by one |
| C140 | I | Equality of the runs of two `ServerCfg` (same effects, same states) for all event sequences. `step_congr`: a connection uses its services through `route` only; with C03 (any order) and C04 (failed registrations) this gives both parts |
| C141 | I | `NoWorse` (`Spec/Larger`) relates the answers of two pools to one event. Invariant `Bigger`: the addresses of the idle connections of the smaller pool are a sublist of those of the larger one, and the larger one has at most as many more as its size is larger; so whenever it has to close its oldest connection, the smaller one is full too. `C141_scopes` is the counterexample with scopes |
| C142 | I | `putBackFor`, `takenFor` (`Spec/InTurn`) read the log of an execution. Invariant `InTurn`: what was put back is, in this order, what has left the pool, what is in it and what is in the queue of commands; what was taken is a sublist of the first part |
| C143 | I | `isCall`, `isReturn`, `isEnd`, `onConns`, `onOne`, `clients` (`Spec/Load`) count what the log of a server shows. Per step of a connection `Balance`: calls and replies differ by whether a handler runs; over the server `Ledger`, the sum of these. `C143_no_limit` builds a history in which the same happens on `k` connections. A handler that panics is not modelled (§3) |
| C144 | I | `mount`, `Under` (`Spec/Mount`). By the dispatch rule of C02 and `after_accepted`: the part of a table below a segment is made of the registrations below it. `C144_server` says it of the decision table of the server, `C144_connection` of everything observed on a connection |
| C145 | I | The state after a written response differs from that of a new connection with the unread bytes only in the method of the last request (`rested_run`, `closed_run`), which no later step reads (`run_method`). What is unread is what the requests of C96 have left |
| C146 | S | `Replicated` (`Spec/Replica`): the hypotheses of C79 with one configuration, and `read_body` and handlers as functions. A completed call has the response to its own request by C79; the response is determined by head and body by C37 (`same_answer`) |
| C147 | R | Over the expected pool of C54: `idle_balance` counts the idle connections by what is observed, `forgets_run` drops suspensions that are over (a simulation; sequence numbers are not part of the expected pool). `C147_only` is the converse: a connection that is left is given to a caller |
| C148 | R | `Renaming` (`Spec/Alike`): an injective map of addresses that preserves and reflects `SameHost`, any map of connections, a delay of the clock. The expected pool of C54 commutes with it (`renamed_step`); the panics are those of C54. For calls (`C148_calls`) the pool itself with later times in its blacklist is simulated (`step_ahead`, `run_clockAhead`) |
| C149 | R | `respell`, `AlikeFor` (`Spec/Respell`). The dispatch rule of C02 commutes with replacements (`after_respell`, `accepted_respell`, `dispatch_respell`); which registrations succeed by C04. This is about the path segments that the router gets; how a target is split and that dot segments are removed before is C85, C86 |
| C150 | R | `rejections`, `LongerSet`, `MoreReports` (`Spec/Stricter`); simulations on the expected pool of C54 (`same_rejections`, `below_longer`, `below_more`). An example shows that a report read from an earlier clock can end a suspension, so the condition on the clock is needed |
| C151 | I | `callTotal`, `putsBack`, `refusedCount`, `pendingCalls`, `commandsTaken` (`Spec/Work`); `Worked` relates the counts before and after a step, and composes over executions (`worked_run`). The equation needs the pool to be alive, since a dropped pool loses its queue; the bounds do not. An example reaches the bound of two commands for a call |
| C152 | I | `openedTotal`, `closedTotal`, `lostCalls` (`Spec/Closing`); `Spent` says what a step adds to the counts, `Accounts` is the invariant. Requests in the queue whose calls were dropped (`deadAsks`) are counted apart, since each of them may still cost a connection; that there is at most one for a call is from C139 (`Ranked`). When the pool closes for want of room it keeps `size` connections, so the bound follows from the balance. Examples reach the bound by a dropped call and by a pool of size zero |
| C153 | R | `Commute`, `Speaks`, `Opens` (`Spec/Commute`); a poll or drop is an `Act` on its call that depends on the call, on whether the pool lives and, if it opens a connection, on the number of connections opened (`Local`), and handling a command leaves the calls alone that do not wait (`handle_other`). Examples show that the conditions are needed |
| C154 | R | `HasNews`, `apartFromIo` (`Spec/Spurious`); by cases on the state of the call, in both directions; `C154_spurious` leaves the poll out of a whole execution. Examples: waiting calls, and a pool that is gone |
| C155 | R | `abandon`, `unlessAbandoned` (`Spec/Abandon`): a simulation between the execution with the drop and the one in which the call is not polled, event by event (`step_abandon`); polls and drops of other calls are `Act`s on those calls. Examples: an idle connection lost to a dropped call |

Some statements in `properties.jsonl` were restated when the model showed that the original
expectation is false of the code: C24, C25, C33, C35, C42, C48, C57 and C59 first stated what a user
would expect and now state what the code does, universally. Their status `proved` refers to the new
statement; the expectation itself is false of the code (section 4). C64 described a defect from the
start. C06, C07, C32, C34 and C56 were reworded too. Where the natural statement stays interesting, it is kept and the claim is `partial`:
C05, C08, C10, C12, C14, C15, C17, C22, C23, C50, C60, C67, each with a theorem `..._partial` for the part
that holds and a theorem `..._full_fails` for the failure (`C22_no_headers_rejected` for C22,
`C12_true_field_fails` for C12). Qualifications that a theorem needs were added to the statements of C29, C42, C56 and
C57 after the proof.

## 3. Trusted base

* Lean's kernel. Every theorem in MANIFEST.json depends at most on `propext`, `Classical.choice` and
  `Quot.sound`. No own axioms, no `sorry`, no `native_decide`, no `bv_decide`.
* The reading of the code: the definitions in `Model/` are transcribed by hand from `/repo`; no code
  was run.
* Contracts of libraries. As definitions (the property holds for the library as far as it behaves
  like this):
  * `Model/Url`: the `url` crate version 2 (percent encode sets, `push`, dot segments, form
    encoding, parsing against a base). Authorities and `file:` URLs are an arbitrary function
    (`UrlOracle`).
  * `Model/Text`: std UTF-8 and integer text.
  * `Model/Serde`, `Model/Visit`: what derived `Serialize`/`Deserialize` implementations ask for and
    emit: unknown fields are ignored, missing `Option` fields are `None`, repeated fields are errors.
  * `Model/Status`: `miasht::Status` has exactly the 57 statuses with these codes.
  * `Model/Pool`: `BTreeMap` and `HashMap` as lists; mpsc queues are FIFO; a oneshot
    reports that its sender was dropped.
  * `Model/PoolTimed`: `timeout_after` of fibers starts its timer when it is made; polled, it looks first at the
    connection and then at the timer, which has expired from its deadline on.
  * `Model/Limits`: `Connection::new(stream, 1024, 8096, 32)` of miasht allows heads of at most 8096 bytes (the
    buffer may grow to this size, and a head has to fit into it) and at most 32 headers; more is an error of
    `read_request`.
  * `Model/Http`, `Model/Chunked`: where a body ends (RFC 7230, 3.3.3 and 4.1). A transfer encoding goes before a
    length; `chunked` is the only one that is understood, and by `Model/Http` alone none is. A message with neither
    has an empty body. `into_body_reader` looks at headers only, not at the status or the method of the request
    (`client.rs:106` treats `HEAD` itself).
  * `track_panic!` returns an error of kind `Invalid` (trackable crate).
  * Headers are handed to the peer as a list of (name, value) bytes, names compared up to ASCII case;
    the transport may add headers (before or behind) that the type does not ask for. For `Model/Http`
    this is a theorem (C67) for headers without control characters and surrounding blanks.
* As type classes, so that theorems hold for every instance: `LawfulFloatText` (std float text:
  parse ∘ show = id, NaN is read as a NaN, printable characters; `Model/FloatStd` is a concrete text that meets it,
  C98; std before Rust 1.53 prints -0.0 as `0`, and before 1.55 reads `inf`, `infinity` and `NaN` only as
  printed), `UrlText` and `JsonText` (parse ∘ render = id for
  URLs and for JSON without fractions and nested at most 127 deep; `Model/JsonText` is a concrete codec that meets
  the latter), `Wire` (the bytes of requests: a complete or malformed head or body does not depend on what
  follows), `MethodNames` (the HTTP methods correspond
  to their names, which are visible ASCII). As a parameter: `Codecs` (serdeconv), in C56 with the
  hypothesis `JsonRecovers` that an embedded value is recovered, which C81 proves for the concrete codec and types whose
  values are such documents.
* Names of headers are ASCII tokens.
* Each poll round of a future is one atomic step; clocks do not go backwards (C50, C134, `C135_iff` only).

## 4. Disagreements found (the code violates the natural statement)

| Finding | Where | Theorem |
|---|---|---|
| `true` is written as `ture` in paths, queries and headers and is never read back | `serializers/url_path.rs:71`, `url_query.rs:48`, `http_header.rs:48` | `C59_true_lost`, `C12_true_field_fails` |
| characters and enum values can be sent but not received | same serializers, `deserializers/*` | `C64_path_lost`, `C64_query_lost`, `C64_header_lost` |
| non-ASCII path arguments arrive as Latin-1 text of their UTF-8 bytes | `deserializers/url_path.rs:340` | `C10_full_fails` |
| `.` and `..` and empty leading arguments change the shape of a path | `serializers/url_path.rs` | `C08_full_fails_dots`, `C08_full_fails_empty` |
| no backtracking in the router | `router.rs` | `C05_full_fails` |
| constants that need escaping, and the empty entry point, are unreachable | `router.rs` | `C06_escaped_const_unreachable`, `C06_empty_entry_unreachable` |
| the value of an unknown query parameter can be taken for a field name | `deserializers/url_query.rs` | `C15_full_fails`, `C15_smuggling` |
| by the same defect a repeated parameter, an absent one or an integer out of range can go unnoticed | `deserializers/url_query.rs` | `C17_full_fails`, `C14_full_fails`, `C60_full_fails` |
| a message without any headers does not decode | `deserializers/rpc_request.rs`, `rpc_response.rs` | `C22_no_headers_rejected` |
| a query without a path field cannot be sent | `serializers/rpc_request.rs:217-225` | `C24_query_needs_path` |
| the client panics if the entry point has variables and the request struct has no field or starts with the header, and for struct variants that start with the header | `serializers/rpc_request.rs` | `C25_panics_iff`, `C25_full_fails` |
| a `ProblemResponse` that is sent as such is never received | `rfc7807.rs` | `C33_never_received` |
| after `set_problem` the status line disagrees with the document | `rfc7807.rs` | `C35_disagree` |
| request targets such as `a:b` make the server panic | `router.rs` | `C42_pathless_target` |
| idle connections to IPv6 addresses that differ only in scope or flow block each other | `pool.rs` | `C48_blocked_by_scope` |
| fields embedded as MessagePack fail always | `msgpack.rs` | `C57_msgpack_rejected` |
| a single value (such as a number) as query or header is accepted and silently dropped | `serializers/url_query.rs`, `http_header.rs` | `C69_single_dropped` |
| entries without a value are lost from a map that is sent as query | `serializers/url_query.rs` | `C18_none_lost` |
| a repeated parameter of a map is no error, the last value wins | `deserializers/url_query.rs` | `C70_query_last_wins` |
| headers received as a map of numbers are rejected because of any other header | `deserializers/http_header.rs` | `C71_foreign_rejected` |
| header fields whose names are not in lower case are sent but never received | `deserializers/http_header.rs` | `C73_headers` (and the example beside it) |
| a text as `header` is dropped, and the receiver gets the name of whatever header comes first | `serializers/http_header.rs`, `deserializers/http_header.rs` | `C73_single_text` |
| `()` as path can be sent but not received | `serializers/url_path.rs`, `deserializers/url_path.rs` | `C74_unit_lost` |
| an optional header field `content-length` that is `None` arrives as the length of the body | `serializers/rpc_request.rs` | `C75_content_length` |
| the name of a newtype variant around a response is ignored by the server, so that the client can get another variant than was sent, and an optional status inside of it is lost | `serializers/rpc_response.rs:141-152` | `C76_misnamed` |
| arrays and objects embedded with `json_pretty` in a header have line breaks, so the request is not understood | `json_pretty.rs`, `serializers/http_header.rs:27` | `C81_request_iff` |
| line breaks in header values smuggle requests | `serializers/http_header.rs:27` | `C67_full_fails` |
| what `read_body` of a procedure leaves of the body is read as the next request | `server.rs:84-94` | `C96_unread` |
| registering `/users/me/x` takes `/users/me` away from `/users/_` (405) | `router.rs` | `C100_captured` (and the example beside it) |
| the value of a query parameter that a newer client has can make an older server reject the request | `deserializers/url_query.rs` | `C101_value_like_name` |
| the caller of a `HEAD` procedure that is refused receives a problem with the status 500, whatever its variant says, as there is no body to read | `client.rs:106`, `rfc7807.rs:155-159` | `C102_head` |
| an `f32` is sent with up to seventeen digits (those of the `f64` it is converted to), though fewer would be read as it | `serializers/*.rs: serialize_f32` | `C103_f32_long` |
| the client sends requests that the server never reads: it does not know the limits of the server (8096 bytes for first line and headers, 32 headers); the connection is closed without a response | `server.rs:151`, `client.rs:96-98` | `C105_client`, `C105_unread` |
| an idle connection is reused without a look at what the server has written on it meanwhile: a surplus response becomes the result of the next call | `pool.rs:178-192`, `pool.rs:206-213` | `C107_early` |
| a path argument `..` with a tab or a line break inside takes the segment before it away, so a call can be, byte for byte, a call of another procedure; `.` and `..` are left out | `serializers/url_path.rs` (`Url::path_segments_mut`, `push`) | `C112_other_procedure`, `C112_left_out` |
| an enum in a query whose newtype variant contains the name of another variant, `None` and `Some(None)`, and map entries without value cannot be told apart by any server, because the same is sent | `serializers/url_query.rs`, `http_header.rs` | `C113_confused` |
| `set_suspended_duration` with a huge duration (to suspend for ever) makes the pool panic at the first failure to connect: idle connections are closed, all calls fail | `pool.rs:173` | `C114_forever` |
| The connect timeout is the only one: a call that is connected to a server that never answers waits for ever | `pool.rs:196-198`, `client.rs` | `C115_patient` |
| An idle connection is not watched: if the server has closed it, it is still given to the next call, which fails without another attempt. The cost is bounded: one call for each such connection | `pool.rs:178-192`, `pool.rs:316-330` | `C123_restart`, `RestartExamples` |
| To drop a call does not take it back: its request may be handled later, even after that of a call that was made afterwards (a caller that gives up and tries again can have the effects in the other order) | `client.rs`, `pool.rs:316-330` | `RealTimeExamples.C124_late` |
| The blacklist of a pool is never cleaned up: an address that failed once is kept for ever unless it is called again after its suspension, so a pool that meets ever new addresses grows without bound | `pool.rs:148-177` | `C125_kept`, `C125_grows` |
| An optional field of a query or of headers that is put into a newtype is no longer optional: what comes without it is refused | serde's `missing_field`, `deserializers/url_query.rs:305-317`, `deserializers/http_header.rs:322-334` | `C116_wrapped_option`, `C116_wrapped_query`, `C116_wrapped_header` |
| A gateway cannot pass on every request that it gets: `true` and path arguments beyond ASCII are read by a server, but what is sent for them does not arrive as they were | `serializers/url_query.rs:48`, `serializers/url_path.rs:71`, `serializers/http_header.rs:48`, `deserializers/url_path.rs:340` | `C117_passed_on` and its example |
| A response with a struct inside of a newtype variant, or with a status that has no name, is read by clients, but no handler can return it | `serializers/rpc_response.rs:141-152`, `serializers/rpc_response.rs:198-227` | `C118_not_returned`, `C118_passed_back` |
| Texts outside of ASCII in a path double in size at each gateway that passes the request on: an é takes 2048 bytes after ten | `deserializers/url_path.rs:340`, `serializers/url_path.rs:108-110` | `C119_growth`, `C119_chain` |
| The client sends no `Host`, unless the request type declares it as a header: a server that demands it, as RFC 7230, 5.4 requires, answers every call with 400 | `serializers/rpc_request.rs:40-62` | `C129_host`, `C129_no_header` |
| Interim responses (RFC 7231, 6.2: a client must be able to parse them) are taken for the answer: the call fails, or completes with the 1xx if its type has a variant for it, and then the answer stays on the connection for the next call | `client.rs:100-131` | `C130_fails`, `C130_taken` |
| Statuses without body (RFC 7230, 3.3.3: 1xx, 204, 304) are treated as all others. The client waits for a body that a `Content-Length` with 304 announces, and the server writes the body that a handler returns with 204, which other clients take for the beginning of the next response | `client.rs:106-131`, `serializers/rpc_response.rs:42-52` | `C131_waits`, `C131_swallows`, `C131_left`, `C131_injected` |
| The pool keeps a connection after every response, also after one with `Connection: close` (RFC 7230, 6.6: a client must cease sending on it); with a server that closes connections after each response every second call fails | `pool.rs:322-329` | `C132_every_second` |
| `Expect: 100-continue` is not understood (RFC 7231, 5.1.1): the server waits for the body and the client for the server | `server.rs:62-98` | `C133_standstill` |
| A problem returned for `HEAD` is read as the problem `about:blank` with status 500, in the variant of another status | `client.rs:106-107`, `rfc7807.rs:49-54`, `rfc7807.rs:155-159` | `C120_returned`, `C120_head` |

## 5. Wrong programs

`seeded/LOG.jsonl` lists edits of the model that imitate realistic bugs (wrong boundary, missed case,
swapped argument, dropped update), one line per finished attempt. Each edit is made in a copy outside
of `/verif`. `proofs_rejected` names the declarations whose own proofs Lean rejects;
`theorems_failed` the theorems of the manifest that depend on one of them. The entries at the end were made by rule
(constants changed by one, branches dropped or exchanged, updates left out, at places chosen at random all over the
model) without a claim in mind; `survived` tells whether no proof was rejected.

How to read it: a rejected proof does not show that the theorem's statement is false of the edited
program. Many theorems share lemmas, so `theorems_failed` also contains theorems whose statement
survives the edit (the first entry breaks C02 but not C01, and lists both). The informative outcome
is the opposite one: a theorem that still proves although its claim is broken.

Entries name theorems as they were called when the attempt was made; a few have since been renamed
(`C12_query_round_trip`, `C23_misordered_rejected` and `C50_suspended_iff` now end in `_partial`; the
former `C64_path_lost` is now `C64_path_rejected`).

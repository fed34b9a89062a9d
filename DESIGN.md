# Design of the formal model of Kuadrant/wasm-shim

The model is written in Lean 4 (`/verif/lean/Verif`).
Each definition cites the file and lines of `/repo` it models.
Each property of `properties.jsonl` is stated in a property file (`Verif/Props/*.lean`).
Helper lemmas live in `Verif/Lemmas/*.lean`, the model in `Verif/Model/*.lean` and small independent specifications in `Verif/Spec/*.lean`.

## Trusted base

* Lean's kernel, version 4.33.0, and its three standard axioms `propext`, `Classical.choice`, `Quot.sound`.
  No axiom is added, no `sorry`, no `native_decide`, no `bv_decide`.
* The reading of the Rust sources as Lean definitions. It was done by hand. The comments give the lines.
* Text is modelled as `List Char` (Rust `String` is UTF-8 of such a list). Byte offsets are computed where the code uses them.
* Maps (`HashMap`, `BTreeMap`, `Trie`) are modelled as association lists or functions with the lookup behaviour the code uses.
* External crates are not modelled: the CEL parser and interpreter (`cel`), `prost`/`prost_reflect` encoding, `acutejson`, `serde_json`, `nom` (its streaming combinators are modelled at the places used), `opentelemetry`, the proxy-wasm ABI and Envoy.
  Where the code calls them, the model takes an arbitrary function ("oracle"), so the theorems hold for every behaviour of the external code.
* Logging and timing have no effect in the model. Metrics are logged as effects.
* A Rust panic is an explicit error value where a property needs it.

## Modelling of the asynchronous core

`Ctx H` is the per-request context, `H` an arbitrary type of host states.
`Oracle H` gives the host's answers to every call the tasks make (predicate test, expression evaluation, dispatch, decoding, reply, header access, property write, body read, trace export).
Every answer may depend on the whole context and may change the host state, so quantifying over `H` and `Oracle H` quantifies over all host behaviours, including every sequence of pending, available and failing answers.
Every observable effect is appended to `Ctx.log`.
`Task.apply`, `processTasks`, `eval`, `digest`, and the filter callbacks are modelled one to one.
Runs are lists of callbacks, each of which may first replace the host state arbitrarily.

Tokens: proxy-wasm hands out call tokens. Where a theorem needs that the host does not reuse the token of a call in flight, this is an explicit hypothesis on the run.

## Plan per property

| Id | Model | Proof |
|----|-------|-------|
| C01 | `Model/Task`, `Model/Executor`, `Model/Filter` | invariant: pause counter = number of guard calls in flight = number of unanswered guard dispatches in the log; induction over callbacks |
| C02 | same | C01's invariant applied after `digest`; completion implies nothing in flight |
| C03 | same | invariant: ended implies the filter flag; case analysis of the gRPC callback |
| C04 | same | invariant: ended implies empty queue, empty teardown, all in-flight entries are no-ops |
| C05 | same | invariant: accepted replies in the log = 0 before the end, at most 1 after; negation for non-terminal denies |
| C06 | same | invariant on the log: each `applied` is preceded by `completed` of each dependency; top-level non-gRPC actions ignore their dependencies in the code (negation proved) |
| C07 | `Model/Blueprint` `computeDeps` | induction over the action list against a specification by position |
| C08 | task and executor | wrapped tasks never fail; run-level theorem for calls never postponed; negation for postponed calls |
| C09 | same | same |
| C10 | executor | `digest` equals processing of `onReply ++ queue`; single pass |
| C11 | executor | invariant on the log: teardown marks |
| C12 | executor | `digest` with unknown token = `eval`; removed token stays absent |
| C13 | executor | invariant: slot empty |
| C14 | executor and blueprint | queue invariant: indices in order; the first unfinished action can always run |
| C15 | filter | case analysis plus negation: with a failed dependency the hold is for ever |
| C16 | filter and factory | case analysis |
| C17 | `Model/Factory` | key encoding is a prefix code of label lists; longest prefix = most specific pattern |
| C18 | same | normalisation lemma |
| C19 | `Model/Factory` | induction over candidates against `List.find?` specification |
| C20 | same | list lemmas |
| C21 | `Model/Path` | parser/printer induction, witnesses for backslash |
| C22 | `Model/Cache` | refinement to a map, induction over operations |
| C23 | `Model/Headers` | list induction |
| C24 | `Model/ValueStore` | invariant: count = number of live reservations |
| C25 | same | ordered map and lexicographic order lemma |
| C26 | `Model/ValueStore`, `Model/Path`, `Model/Pipeline` | identifiers as printed paths; prefix of text = prefix of path; along whole requests by an invariant on bindings and the log |
| C27 | `Model/Sse` | streaming parser state = parser state on concatenation |
| C28 | `Model/Sse`, `Spec/Sse` | refinement to a line-splitting specification |
| C29 | `Model/Body` | induction over events |
| C30 | `Model/Body`, `Model/Task`, `Spec/BodyFeed` | joint invariant of tasks and context: what the parser was fed is the body up to the offset read; negations for the swapped buffering modes |
| C31 | `Model/Body` `parseJsonScalar` | digits printing and parsing |
| C32 | `Model/Legacy`, `Spec/Cel`, `Spec/Legacy` | induction over characters; derivation of the whole request in the grammar |
| C33 | `Model/Legacy`, `Spec/Cel` | grammar derivation for the generated text |
| C34 | `Model/Legacy`, `Spec/CelEval`, `Spec/Verdict` | the reply actions are parsed and evaluated symbolically, then run one after the other; F19 is a denial without status; on the host (`Spec/Obliging`, `Spec/CelLib`): what the attribute cache, the value store and the variables of an expression hold in each context that occurs |
| C35 | same | same; for reports any result of the evaluation; headers for a response that has not arrived wait, and C77 (an action that waits is tried again) and C53 (one result) say that they are set when it has |
| C36 | `Model/Descriptors` | invariants over operations |
| C37 | `Model/Root` | case analysis and induction over operations |
| C38 | `Model/Converters` | induction over types and values |
| C39 | `Model/GrpcPath`, `Model/World` | list lemmas; on the host (`Props/GrpcHost`) with the variables of expressions |
| C40 | `Model/Headers` `headerPairs` | list lemmas |
| C41 | `Model/SpanBuffer` | invariant: buffer = last `cap` elements |
| C42 | `Model/Query` | invariant of the loop over the parts; decoding inverts every encoding described in `Spec/Strings` |
| C43 | `Model/Strings` | each function against a relation in `Spec/Strings` that determines the result |
| C44 | `Model/CelEnv` | induction over sorted insertions into the tree |
| C45 | `Model/CelEnv` | induction over expression trees; negation for results of methods |
| C46 | `Model/Ctx`, `Model/Blueprint` | state invariant |
| C47 | `Model/Ctx`, `Model/Factory` | list induction |
| C48 | `Model/Task` `sendReply` | case analysis |
| C49 | `Model/Path` | host path printing by segments |
| C50 | `Model/Ctx` | text lemma, negation for IPv6 |
| C51 | `Model/Ctx` | little-endian encoding and decoding |
| C52 | `Model/Headers` | list induction |
| C53 | task, executor, blueprint | invariant: history marks plus occurrences among the tasks is at most one per identifier |
| C54 | `Model/Legacy`, `Spec/Cel` | grammar derivation; truth of the tree |
| C55 | `Model/CelEnv`, `Model/ValueStore` | lookup in the sequence of added variables; negations with witnesses |
| C56 | `Model/Converters` | mutual induction over values |
| C57 | `Model/Converters` | invariant of the worklist, decreasing measure over a finite pool |
| C58 | `Model/CelEnv`, `Model/Cache` | case analysis over the attribute table, against a table of types in `Spec/AttrTypes` |
| C59 | whole pipeline | from C60 for what is sent; analysis of a start of the action for sending at once |
| C60 | whole pipeline | invariant of contexts: each effect in the history has a cause (`Spec/Cause`), stored values are those in the history |
| C61 | `Model/Document` | each reader is equivalent to a relation in `Spec/Document`, by induction over the document |
| C62 | `Model/Document`, `Model/Root` | readers do not see the order; sorting by injective keys; services as a map |
| C63 | `Model/Host`, `Model/World`, `Model/Session` | invariant of host, cache and history: the cache has the map written last |
| C64 | same | invariant: the entry stays or the history has a write; the variables of an expression depend on the cached answers only |
| C65 | same | cases over the status codes; invariant over the history |
| C66 | same | invariant relating the record of the host to the history |
| C67 | the expression built for the tracking header, as text | the tokenizer of `Spec/Cel` on quoted texts; the start of the filter |
| C68 | what was done before the stream goes on | C01/C02 (no guard call in flight), C08 (failures end the request), C34/C35 (what replies ask for), and which event a response in the history is |
| C69 | `Model/Tracing`: trace contexts of all requests of a virtual machine, with the stack of entered spans | invariants over histories: every entered span is held by one open request, spans are numbered; for one request, its own span is the only one entered |
| C70 | the creation of services from the document, composed with compilation | the services in force correspond to the document's; with the cause of every call (C59) |
| C71 | `collect_body_values` and `to_tasks` | induction over compiled actions: the fields collected are those the configured expressions refer to |
| C72 | the span buffer shared by requests, `build_export_request`, `dispatch_export` and the export task | induction over histories of ended spans and teardowns; the calls against the spans that ended |
| C73 | reservations held by tasks, the moments at which tasks are applied; which actions are still to come, as a specification over the history | invariants of the executor linking each call and its reply actions; counting tasks; then the data map of evaluated expressions |
| C74 | `Model/Observability`: the two filters, the host's level, events | history specification (last configuration read, last time the host was asked); induction on the history |
| C75 | `Model/Metrics`: lazy definition of counters, increments, next to the virtual machine | closed form of the calls; induction on the history with the logs of all requests |
| C76 | `Model/Legacy`, `Spec/Request`: the queries as data | value of the generated syntax tree under any evaluator that follows CEL; C32 for the text, C59 for the calls of whole requests |
| C77 | `Spec/Fate`: why an action has not completed | invariant of all steps (`Lemmas/Fate`): every action that is not completed is in the queue or in flight; what stays in the queue was tried in this callback or is blocked |
| C78 | `Model/Converters`, `Spec/Answers`: when a message is of its type and what it says | induction over messages; the relation of the specification is shown to determine the value |
| C79 | `Spec/Wire`: what the messages of both services ask for, read off their protobuf fields | C78 gives the value of the message, which is shown to be a reply in the sense of C34 and C35; then these on the composed model |
| C80 | `Spec/WireRequest`: the fields of the messages that ask the services | C76 gives the value that is converted; its conversion is computed field by field (`Lemmas/WireRequest`) |
| C81 | `Spec/HostFacts`: what a host says about a request (`Given`), what the text of an expression mentions | the invariant of the attribute cache (C34, C35) gives the variables of the expression at the moment of the call; C76 and C80 give the value and the message (`Lemmas/HostFacts`) |
| C82 | `Spec/Routed`: what a host says about a request as it begins, predicates that this decides | C17 gives the hostname and the order; the cache at that moment holds nothing but what the host says, so each predicate has the value the language gives it (`Lemmas/Routed`) |
| C83 | `Spec/Routed`: conditions and messages that standing attributes decide | the contexts in which an action can be started hold nothing but what the host says about those attributes, so the predicate and the message have their values and the send task calls at once (`Lemmas/Called`) |

All properties can be expressed in an executable model. Where the property depends on external code (CEL evaluation, protobuf encoding), the logic around it is modelled and the external part is an arbitrary function.

## What is modelled

Paths are below `crates/kuadrant-filter/src` unless they begin with `wasm-shim`. Test code (`#[cfg(test)]`, `resolver/mock.rs`) is not modelled.

| Source | Model | Not modelled |
|--------|-------|--------------|
| `configuration.rs` | `Model/Document`, `Model/Root` | serde's array form of structures, words as objects, numeric tags |
| `configuration/legacy_translation.rs` | `Model/Legacy` | labels and sources of spans |
| `data/attribute.rs` | `Model/Path`, `Model/Val`, `Model/CelEnv` | |
| `data/cel.rs` | `Model/CelEnv`, `Model/Query` | evaluation of the CEL library itself (an oracle; `Spec/CelEval` fixes its meaning where a theorem needs it) |
| `data/cel/strings.rs` | `Model/Strings` | Unicode case tables |
| `data/grpc.rs` | `Model/GrpcPath` | |
| `data/headers.rs` | `Model/Headers` | |
| `filter/descriptor_manager.rs` | `Model/Descriptors` | protobuf decoding (a parameter), mutex |
| `kuadrant/cache.rs` | `Model/Cache` | |
| `kuadrant/context.rs` | `Model/Ctx`, `Model/Cache`, `Model/ValueStore` | spans of the request |
| `kuadrant/pipeline/blueprint.rs` | `Model/Blueprint` | sources of actions |
| `kuadrant/pipeline/executor.rs` | `Model/Executor` | |
| `kuadrant/pipeline/factory.rs` | `Model/Factory`, `Model/Root` | `radix_trie` (modelled as longest stored prefix) |
| `kuadrant/pipeline/tasks/*` | `Model/Task`, `Model/Body`, `Model/Sse` | `acutejson` (a parameter) |
| `services/mod.rs`, `services/dynamic.rs` | `Model/Root`, `Model/Task` | |
| `services/dynamic/converters.rs` | `Model/Converters` | `prost_reflect` encoding of messages |
| `services/tracing.rs`, `tracing/processor.rs` | `Model/SpanBuffer` (buffer and export), `Model/TraceExport` (export message and call) | conversion of one span and protobuf encoding (opentelemetry crates) |
| `tracing/propagation.rs`, `context.rs` (trace context), `tasks/tracing_decorator.rs` (spans), `tasks/export_traces.rs` | `Model/Tracing`, apart from the pipeline, where the headers are an arbitrary function of the context | names and attributes of spans, change of the filters while requests are open; the crates `tracing`, `tracing-subscriber`, `tracing-opentelemetry` and `opentelemetry` are modelled from their documented behaviour, which could not be checked against their sources here |
| `tracing/mod.rs`, `tracing/log_layer.rs` | `Model/Observability`, `Model/Root` | the subscriber of the `tracing` crates, fields other than the message |
| `metrics/mod.rs` | `Model/Metrics` | |
| `wasm-shim/filter/kuadrant_filter.rs` | `Model/Filter` | log lines |
| `wasm-shim/filter/root_context.rs` | `Model/Root` | log lines |
| `wasm-shim/wasm_host.rs` | `Model/Host`; composed with cache, CEL environment and filter in `Model/World`, `Model/Session`; levels in `Model/Observability`, counters in `Model/Metrics` | log output |

## Assumptions behind the model

* In `Model/World` the trace headers, the message of the exported spans and the reservations of the value store are given functions of the request's context; reading calls do not change the host.
* The trie gives the value of the longest stored key that is a prefix of the key asked for.
* Hash maps are lists of pairs with unique keys. Where the code iterates over a hash map the model iterates in the order of the list. Where this matters a theorem quantifies over all orders.
* Texts compare by code point, which is the order of their UTF-8 bytes.
* `usize` has 32 bits, as on `wasm32`.
* Mutexes are not modelled: the virtual machine has one thread, and no lock is held across a call into the host that could come back.
* During the evaluation of one expression the host's answer for an attribute is a function of the path.
* A literal constant of CEL evaluates to itself. A selection of a field that a struct lacks is an error.
* What expressions and services give is asked of the host, so theorems about whole requests assume answers, or tell which answers were given. These statements are about the contexts in which an action is really evaluated or a response really looked at (`Spec/Moments`: `Acting`, `Hearing`, `Fetching`), not about all contexts one could make up.
* `Spec/Cel` is the grammar of CEL as far as the generated expressions need it, `Spec/CelEval` the meaning of its trees. That the library follows them is assumed; `Spec/CelLib` says exactly what is assumed for a text: the library finds no variables or body functions in it that are not written there, and where the language gives the expression a value the library gives the same. Nothing is assumed about other texts.
* Numbers in documents and in JSON bodies are kept as texts.
* The string functions of Rust's standard library and the `urlencoding` crate are modelled from their documentation.
* Messages of `prost_reflect` are the lists of the fields that are set. The descriptors of the well-known types are those of the protobuf distribution.
* serde's derived readers follow its documentation: missing, repeated and unknown fields, defaults, untagged and internally tagged enumerations.

## Findings

Each line is a theorem that shows, with a concrete witness, that the property in its plain form is false of the code.
The property's other theorems then state what does hold.

* `C05_terminal_needed`: The condition on the configuration is needed: a deny action that is not terminal lets the pipeline go on, so that two replies are sent.
* `C06_only_calls`: C06 is about gRPC actions only: a sequential headers action depends on the action before it, and is carried out although that action has not completed.
* `C08_postponed_fails_open`: C08 does not hold of actions that were postponed: the action waits for data of the request body, fails when it is started again, and the request goes on although the failure mode is deny.
* `C08_reply_fails_open`: Nor of calls that are reply actions: their failure is no failure of the request, whatever the failure mode of their service.
* `C14_failure_blocks`: With a failure the pipeline may never complete: an action fails, the action that depends on it never starts, so that the authorization service is never called; the request is passed on all the same, and at the end of the response body the response is held back although no call is in flight whose answer could release it.
* `C15_resumed_before_completion`: The hold at the end of the response body is not kept: with two calls in flight the first response resumes the stream although the pipeline has not completed.
* `C15_hangs`: The response may hang: an action that failed leaves an action that depends on it in the queue for ever. At the end of the response body the filter answers Pause although no call is in flight whose response could resume it.
* `C17_dollar`: A host that contains `$` is taken for the hostname after it: the restriction of C17 is needed.
* `C17_no_backtracking`: A less specific hostname is not tried when no set of the most specific one matches.
* `C21_backslash`: With backslashes the path is not given back.
* `C21_shared`: With backslashes different paths share an entry of the cache.
* `C27_split_inside_character`: The restriction to character boundaries is needed: the two bytes of `é` in different chunks make the reader fail, while the whole body is accepted.
* `C28_leading_empty_data_lost`: Deviation from the HTML standard: leading empty data lines are lost.
* `C28_trailing_empty_data_lost`: Deviation from the HTML standard: a trailing empty data line is lost.
* `C30_json_in_chunks`: A JSON body that is handed over in chunks loses bytes: the second chunk is not longer than what has been read, so it is taken for old, and `12` is kept of the body `123`.
* `C30_events_accumulated`: An event stream that is accumulated is read again from the beginning with each callback, and the part that was cut is glued to the beginning: the data of the second to last event is neither `1` nor `2`.
* `C30_events_reevaluated`: A response to a call between two chunks makes the store action read the same chunk again.
* `C31_strings_confused`: The typing loses information for strings: the parser for plain JSON bodies looks at the characters of a JSON string only, so the string `"true"` becomes the boolean and `"42"` the integer, while the parser for event streams keeps the same strings as strings.
* `C32_hits_not_escaped`: Finding: a static number of hits is not quoted: this text, which is not an expression, is given as data and comes out as two calls.
* `C33_comment`: Finding: the condition on comments is needed. Two predicates, the first of which ends in a comment: the joined predicate holds although the first one does not.
* `C34_no_status`: C34, restricted: the condition on the status of a denial is needed. If a denial has no status, or a negative one, and expressions without value are errors, the action that should end the request fails, and the request goes on.
* `C34_denial_ignored`: A denial without status: the request goes on.
* `C36_overridden`: Why `C36_embedded` asks that nothing was received before: a response may contain a service that was not requested, and if this service has embedded descriptors but is not configured yet, it is replaced.
* `C36_collision`: Why `C36_faithful` excludes collisions: a service is given the descriptors embedded for another one.
* `C36_rejected_requested`: The services of a configuration that is rejected are requested all the same.
* `C37_trace_filter`: The level of the trace filter, however, is taken over from a configuration that is rejected.
* `C38_wraps`: C38 fails for numbers out of range: an integer too large for a 32-bit field is not refused but sent as another number, the one that agrees with it modulo 2^32.
* `C38_wraps_unsigned`: C38 fails likewise for unsigned integers.
* `C38_wraps_to_zero`: C38 fails: a limit of 2^32 becomes 0.
* `C38_keys_merge`: C38 fails for the keys of maps: two keys out of range become one, and an entry is lost.
* `C38_key_type`: C38 fails for the types of keys: text keys are accepted for a map whose keys are numbers or booleans, and the message then has keys of a type its definition does not have.
* `C38_free_form`: C38 fails for the free-form types: a map, list or plain value, which is how `google.protobuf.Struct`, `ListValue` and `Value` are read, cannot be written to a field of that type.
* `C38_any_struct`: C38 fails for names of structs: a struct of any type is accepted for a message of any type, only the fields with matching names counting.
* `C38_alternatives`: C38 fails for two alternatives given at once: only the later one is sent.
* `C41_zero`: The bound needs a capacity of at least one: a buffer of capacity zero still holds a span. The code only makes buffers of capacity 100 outside its tests.
* `C42_second_equals`: A value with `=` in it, as in padded base64, is cut at that `=`.
* `C42_plus`: `+` stays `+`: a form's space is not decoded.
* `C42_method`: Called as a method the second argument is not seen: `true` has no effect.
* `C43_offsets_differ`: `indexOf` counts bytes but `charAt` and `substring` count characters: the position found is not that of the text searched for when a character outside ASCII stands in front of it.
* `C43_last_relative`: `lastIndexOf` with an offset: the last `c` of `abcabc` is at 5, the answer from 3 on is 2.
* `C43_offset_panics`: An offset in bytes that is inside a character makes both functions panic.
* `C43_wraps`: Numbers are taken modulo 2^32: a negative position is a huge one and a huge one can be a small one.
* `C45_method_result`: A field selected from the result of a method is taken for a field of the attribute the method is applied to: the path referred to is not read, and what is seen under it is a map made up for the path below it.
* `C46_rewritten`: C46, limits: without a tracking header the id is fixed by the first call, so an action that replaces `x-request-id` before it changes the id: the request came with `a` and the call carries `b`.
* `C48_truncated`: C48, limits: a status beyond 32 bits is cut, here to 200.
* `C49_dot`: A dot within a segment breaks the correspondence.
* `C50_ipv6`: An IPv6 address is cut off at its first colon.
* `C54_ternary`: Finding: a predicate that is alone in its block is not put in parentheses. With `x` and `a ? b : c` as the predicates of two blocks the generated predicate is `(x || a) ? b : c`, which is false although the block with predicate `x` asks for the call.
* `C55_five_roots`: C55: under the five roots a variable of the context is never seen.
* `C55_connection`: The attributes of a connection are read for an expression, but it does not see them.
* `C55_index`: An attribute asked for with an index, as in `request['host']`, is not read: the root is null.
* `C55_computed_field`: A field of the body whose name is computed is null although the body has a value for it.
* `C55_labels`: An expression that refers to the labels of a peer, or to the context extensions of a request, is never evaluated, whatever the host answers.
* `C57_free_form`: C57 fails for the free-form types: a field of type `google.protobuf.Struct` is declared to be a struct of that name, but its values are maps.
* `C58_response_headers`: C58: the response headers have no type, so that reading them always fails or has to wait, whatever the headers are.
* `C61_fallback`: A typed call that forgets `terminal` is not rejected if it also has a scope: it is read as a legacy action, whose predicate, reply actions and message are gone.
* `C62_rejected_leftovers`: What a later, empty configuration asks for depends on that order.
* `C64_grpc_not_remembered`: C64 does not extend to `request.grpc`: the content type it depends on is asked from the host each time. Here the action that stores it fails once the host has another content type, although the first one could store it.
* `C65_empty_answer_fails`: C65, against the expectation that every message of the service is an answer: a message whose fields all have their default values is encoded in no bytes at all. A service that answers so is treated as failed by an action that acts on answers, and the request is denied where the failure mode says so. The service here decodes any bytes.
* `C67_injected`: C67, against the expectation: an id can also be a part of the expression. This one makes the expression read an attribute, whose value then goes to the client as the response header.
* `C67_no_expression`: C67, against the expectation for other ids: one quote is no expression at all.
* `C67_crash`: C67, against the expectation that a client cannot break the filter: where a tracking header is configured, a request with a single quote as its `x-request-id` crashes the filter as soon as an action set is found for it. The only assumption about the parser is that it accepts nothing that is not CEL.
* `C68_late_guard`: A guard action that waits for another action that is no guard holds nothing: the request goes on first. The guard call is sent later, and its refusal comes too late.
* `C68_body_guard`: Nor does a guard action that waits for data of the request body: the request headers go on before it is decided.
* `C69_mixed_deviation`: C69 fails of requests that overlap: the span of a request stays entered between callbacks, so a task of request 1 that is first applied after request 2 started is part of the trace of request 2, and its call sends that trace.
* `C69_inherited_deviation`: C69 fails of requests that overlap: a request whose headers carry no trace and no baggage sends those of a request with tracing that is open when it starts.
* `C69_silent_deviation`: C69 fails of requests with tracing whose spans are entered for the sake of the log but not recorded: as long as the request's span is open no call sends a trace, whatever its headers carry. This is so with the default level of tracing and the log level `INFO`.
* `C31_signedness_deviation`: C31 is about store actions. Token counting reads the same field of the same body as an unsigned integer where a store action reads a signed one.
* `C71_unread_deviation`: C71 is about calls only. For an action of another kind at the top level nothing looks for the fields it refers to, so it is never carried out, and the end of the response body is held back for good.
* `C72_refused_deviation`: C72, finding: when the host refuses an export call, its spans are gone; the next export does not carry them.
* `C73_later_writer`: C73, deviation: an action that refers to a value stored by an action listed after it waits, but the request does not wait for it: it goes on to the upstream without the headers the action was to set, and the action is run again when the response headers come.
* `C73_writer_below`: C73, deviation: an action does not wait for an action that stores a value below a path it refers to. It sees what was stored before.
* `C73_cycle`: C73, deviation: actions that wait for each other, or for themselves, never store anything, and the request goes on without them.
* `C75_allowed_deviation`: C75, against what the names say: a request can be counted both as denied and as allowed, since `allowed` is increased whenever response headers arrive, those of the filter's own reply included.
* `C76_unconditional_deviation`: Finding: the domain and the number of hits that a block gives are used although a predicate of the block is false.
* `C79_no_status_deviation`: A denial that has no status, or a negative one, is not carried out: the request goes on.
* `C80_hits_deviation`: Finding: a request for 2^32 hits is sent as one for no hits, which every limit allows.

## Axioms per theorem

What `#print axioms` gives for the theorems of `MANIFEST.json`, all in `Verif.Props`.

* Classical.choice, Quot.sound, propext: C01_pause_iff_guard, C02_never_with_guard, C02_only_responses, C02_resume_iff_no_guard, C03_denied_not_forwarded, C04_later_callbacks, C04_no_policy_after_end, C05_one_reply, C05_terminal_needed, C06_after_dependencies, C06_only_calls, C06_transitively, C07_all_legacy, C07_parallel, C07_printed, C07_sequential, C08_cannot_send, C08_error_status, C08_fails_closed, C08_postponed_fails_open, C08_reply_fails_open, C08_undecodable, C09_fails_open, C10_order, C10_skipped, C10_visible, C11_after_all_work, C11_at_most_once, C11_exported, C12_unknown_token, C13_own_response, C13_slot, C14_completes, C14_completes_start, C14_failure_blocks, C14_results, C14_unfinished, C14_unfinished_start, C15_completion_resumes, C15_end_of_body, C15_hangs, C15_resumed_before_completion, C16_counted_once, C16_denied, C16_hit, C16_miss, C16_routing_error, C17_dollar, C17_most_specific, C17_no_backtracking, C17_not_bare, C18_config, C19_first_set, C20_cut, C20_lossless, C20_whole, C21_backslash, C21_shared, C22_failed_write, C22_header_map_of_host, C22_header_maps, C22_not_remembered, C22_own_bytes, C22_own_headers, C22_stable, C23_header_action, C24_latest, C24_pending, C25_prefix, C26_innermost, C26_isolated, C26_session, C26_unbound, C27_chunks, C27_split_inside_character, C28_events, C28_leading_empty_data_lost, C28_trailing_empty_data_lost, C29_store, C29_tokens, C29_values, C30_events, C30_events_accumulated, C30_events_reevaluated, C30_json, C30_json_in_chunks, C30_json_values, C30_request, C30_tokens, C31_int, C31_int_text, C31_rest, C31_signedness_deviation, C31_strings_confused, C31_uint, C31_uint_text, C31_words, C32_auth_request, C32_contained, C32_hits_not_escaped, C32_literal, C32_ratelimit_request, C33_all, C33_auth, C33_comment, C33_conjunction, C33_unambiguous, C34_decided, C34_no_status, C34_no_status_on_host, C34_on_host, C35_decided, C35_later, C35_on_host, C35_report, C35_started, C36_again, C36_collision, C36_delivered, C36_embedded, C36_embedded_not_requested, C36_faithful, C36_fetched, C36_overridden, C36_rejected_requested, C36_requested, C36_stays, C36_timer_kept, C36_timer_off, C36_timer_on, C37_descriptors, C37_in_flight, C37_in_force, C37_rejected, C37_trace_filter, C38_alternatives, C38_any_struct, C38_free_form, C38_given, C38_key_type, C38_keys_merge, C38_message, C38_mismatch, C38_not_given, C38_round_trip, C38_time, C38_type, C38_wraps, C38_wraps_to_zero, C38_wraps_unsigned, C39_attribute, C39_on_host, C39_on_host_other, C40_list, C40_lists, C40_other, C40_structs, C42_decode, C42_decode_any, C42_decode_plain, C42_empty, C42_first, C42_method, C42_plus, C42_repeats, C42_round_trip, C42_second_equals, C43_ascii, C43_indexOf_from, C43_lastIndexOf_from, C43_last_relative, C43_offsets_differ, C43_trim, C43_trim_unique, C43_wraps, C44_available, C44_reached, C44_shortest, C44_stored, C44_waits, C45_body_fields, C45_covered, C45_exact, C45_method_result, C46_generated, C46_generated_on_host, C46_incoming, C46_incoming_on_host, C46_incoming_tracked, C46_incoming_tracked_on_host, C46_rewritten, C46_same_id, C48_reply, C48_truncated, C49_dot, C49_exported_name, C49_exported_read, C50_ipv6, C50_remote_address, C51_signed, C51_timestamp, C51_unsigned, C52_joined, C53_not_again, C53_one_call, C53_one_result, C54_ratelimit_predicate, C54_ternary, C55_attribute, C55_bare_root, C55_body, C55_body_other, C55_computed_field, C55_connection, C55_five_roots, C55_grpc, C55_index, C55_labels, C55_no_grpc, C55_scope, C55_stored, C55_stored_name, C56_export, C56_shape, C57_declared, C57_ends, C57_free_form, C57_types, C58_headers, C58_meaningless, C58_missing, C58_pending, C58_response_headers, C58_types, C58_value, C59_configured, C59_legacy, C59_sent, C60_caused, C61_fail_open, C61_failure_mode_required, C61_fallback, C61_guard, C61_in_force, C61_means, C61_no_scope, C61_read, C61_unknown, C62_configure, C62_read, C62_rejected_leftovers, C63_changes_add_up, C63_host_has_last, C64_expression, C64_grpc_not_remembered, C64_snapshot, C65_body, C65_empty_answer_fails, C65_headers, C65_no_dropped_write, C65_property, C65_response, C66_calls, C67_as_data, C67_crash, C67_injected, C67_no_expression, C68_answered, C68_authorized, C68_authorized_on_host, C68_body_guard, C68_late_guard, C68_success, C68_within_limit, C68_within_limit_on_host, C69_decorated, C69_inherited_deviation, C69_mixed_deviation, C69_silent_deviation, C69_traced, C69_untraced, C69_untraced_carried, C70_call, C70_failure_mode, C70_incomplete, C70_services, C71_looked_for, C71_only, C71_unread_deviation, C72_call, C72_complete, C72_once, C72_refused_deviation, C72_scope, C73_cycle, C73_later_writer, C73_reservations, C73_waits, C73_waits_deny, C73_writer_below, C74_lines, C74_root, C74_stale, C74_traces, C75_allowed_deviation, C75_calls, C75_counter, C75_requests, C75_totals, C76_check, C76_check_sent, C76_limit, C76_limit_sent, C76_unconditional_deviation, C77_held_back, C77_held_back_first, C77_retried, C77_started, C77_started_first, C78_reply, C78_unique, C78_value, C79_check, C79_limit, C79_no_status_deviation, C80_check_sent, C80_hits_deviation, C80_limit_sent, C81_check, C81_limit, C82_served, C82_uncovered, C83_called, C83_first, C83_spared, VerdictDemo.C34_denial_ignored, setAll_replaced
* Quot.sound, propext: C07_legacy, C07_no_cycle, C12_second_delivery, C17_unique, C18_host, C21_no_sharing, C32_one_line, C41_bounded, C41_complete, C41_export, C41_newest, C41_once, C41_warned, C42_decode_unique, C42_parts, C43_charAt, C43_charAt_beyond, C43_indexOf, C43_indexOf_none, C43_join, C43_join_split, C43_lastIndexOf, C43_lastIndexOf_none, C43_lower, C43_offset_panics, C43_replace, C43_replace_count, C43_replace_empty, C43_split, C43_split_chars, C43_split_join, C43_split_limit, C43_substring, C43_substring_beyond, C43_substring_order, C43_substring_tail, C43_upper, C47_empty, C47_first_outcome, C47_left_to_right, C69_headers
* propext: C17_other_exact, C21_round_trip, C21_trailing, C28_standard_data, C39_path, C39_rejected, C43_join_error, C43_join_plain, C43_no_panic, C43_split_zero, C51_length, C56_unchanged
* none: C17_exact, C41_zero

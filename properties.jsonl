{"id": "C01", "title": "Traffic is held exactly while a guard call is outstanding", "statement": "As long as no action has ended the request early, every HTTP callback (request headers, request body, response headers, response body before the end) answers Pause if some guard gRPC call has been dispatched and not yet answered, and Continue otherwise.", "quantifier": "every action set, every host behaviour, every sequence of HTTP callbacks and gRPC responses whose call tokens are distinct", "why_tests_cant": "the number of interleavings of callbacks and responses is unbounded and the pause counter is updated in several places", "anchors": ["crates/kuadrant-filter/src/kuadrant/pipeline/executor.rs requires_pause", "crates/kuadrant-filter/src/kuadrant/context.rs Barrier", "crates/kuadrant-filter/src/kuadrant/pipeline/tasks/dynamic.rs DynamicTask::apply", "crates/wasm-shim/src/filter/mod.rs should_pause"]}
{"id": "C02", "title": "Traffic is resumed as soon as, and only when, no guard call is outstanding", "statement": "When a gRPC response is delivered and no action has ended the request early, the filter resumes the stream in that callback if and only if, after processing the response, no guard call is outstanding. In particular a request or response with an unanswered guard call is never resumed.", "quantifier": "every reachable filter state, every response token, status and size", "why_tests_cant": "depends on the whole history of dispatched calls and on what the response triggers", "anchors": ["crates/wasm-shim/src/filter/mod.rs on_grpc_call_response, should_resume", "crates/kuadrant-filter/src/kuadrant/pipeline/executor.rs digest"]}
{"id": "C03", "title": "A denied request is never forwarded", "statement": "Once an action has ended the request early (terminal deny, terminal fail, failure mode deny) while in the request phase, no gRPC response delivered later makes the filter resume the request, whatever order responses and body callbacks arrive in.", "quantifier": "every action set, host and callback sequence staying in the request phase", "why_tests_cant": "in-flight calls may answer in any order after the denial", "anchors": ["crates/wasm-shim/src/filter/mod.rs on_grpc_call_response, should_resume", "crates/kuadrant-filter/src/kuadrant/pipeline/executor.rs process_tasks, digest"]}
{"id": "C04", "title": "No policy effect after an early end", "statement": "After an action has ended the request early, no later callback sends another direct reply, dispatches another policy call, changes headers, writes a host property or stores a value. Only the trace export of the teardown may still be dispatched, and only in the callback that ended the request.", "quantifier": "every reachable ended state and every later callback sequence", "why_tests_cant": "late responses carry closures that could still run reply actions; needs an invariant over all schedules", "anchors": ["crates/kuadrant-filter/src/kuadrant/pipeline/executor.rs replace_deferred_with_noop, execute_teardown, process_tasks, digest"]}
{"id": "C05", "title": "At most one direct reply when every deny action is terminal", "statement": "If all deny actions of the action set (nested ones included) are terminal, the host accepts at most one direct reply from the pipeline during the whole life of a request.", "quantifier": "every action set with terminal denies only, every host and schedule", "why_tests_cant": "replies can be produced by deny, fail, failure mode and terminal store or header actions in any callback", "anchors": ["crates/kuadrant-filter/src/kuadrant/pipeline/tasks/send_reply.rs", "crates/kuadrant-filter/src/kuadrant/pipeline/tasks/fail.rs", "crates/kuadrant-filter/src/kuadrant/pipeline/tasks/failure_mode.rs", "crates/kuadrant-filter/src/kuadrant/pipeline/executor.rs process_tasks, digest"]}
{"id": "C06", "title": "A gRPC action starts only after its dependencies completed", "statement": "A gRPC action is started and its call is dispatched only after each action it depends on has completed (its predicate was false, its work was done, its reply was processed successfully, or its failure was allowed by failure mode).", "quantifier": "every pipeline, host and schedule", "why_tests_cant": "needs an invariant on the order of events in all histories", "anchors": ["crates/kuadrant-filter/src/kuadrant/pipeline/executor.rs process_tasks", "crates/kuadrant-filter/src/kuadrant/pipeline/tasks/dynamic.rs dependencies", "crates/kuadrant-filter/src/kuadrant/pipeline/tasks/failure_mode.rs dependencies"]}
{"id": "C07", "title": "Dependency computation matches the execution modes", "statement": "A sequential action waits, directly or transitively, for every action before it. A parallel action waits, directly or transitively, for exactly the actions up to and including the latest sequential action before it that the chain reaches. Each legacy action waits for the action just before it, so an all-legacy action set is a strict chain. No action waits for itself or for a later action.", "quantifier": "every list of actions with any mix of kinds and of any length", "why_tests_cant": "lists are unbounded and the property is about the transitive closure", "anchors": ["crates/kuadrant-filter/src/kuadrant/pipeline/blueprint.rs compute_dependencies"]}
{"id": "C08", "title": "Failure mode deny fails closed", "statement": "If a top-level gRPC action whose service has failure mode deny, and which was not postponed to wait for body data before, fails (predicate or message evaluation error, dispatch error, non-zero gRPC status, undecodable response), the pipeline sends a 500 reply with body 'Internal Server Error.\\n', ends the request and drops all queued work.", "quantifier": "every action set, host and schedule", "why_tests_cant": "failures can appear at any point of the asynchronous life of the action", "anchors": ["crates/kuadrant-filter/src/kuadrant/pipeline/tasks/failure_mode.rs", "crates/kuadrant-filter/src/kuadrant/pipeline/tasks/dynamic.rs", "crates/kuadrant-filter/src/kuadrant/pipeline/blueprint.rs to_tasks", "crates/kuadrant-filter/src/kuadrant/pipeline/executor.rs digest"]}
{"id": "C09", "title": "Failure mode allow fails open", "statement": "If a top-level gRPC action whose service has failure mode allow, and which was not postponed to wait for body data before, fails (in the same ways), no reply is sent because of it, the request is not ended, and the action counts as completed so the actions that wait for it can proceed.", "quantifier": "every action set, host and schedule", "why_tests_cant": "failures can appear at any point of the asynchronous life of the action", "anchors": ["crates/kuadrant-filter/src/kuadrant/pipeline/tasks/failure_mode.rs", "crates/kuadrant-filter/src/kuadrant/pipeline/blueprint.rs to_tasks", "crates/kuadrant-filter/src/kuadrant/pipeline/executor.rs digest"]}
{"id": "C10", "title": "Reply actions run once, in order and first", "statement": "When a gRPC action with reply actions receives a successful, decodable response, its reply actions are evaluated in declared order, each once in that callback, before any other queued action, with the response bound to the configured variable and visible to them.", "quantifier": "every reachable state, every list of reply actions and queue", "why_tests_cant": "queue contents and nesting are unbounded", "anchors": ["crates/kuadrant-filter/src/kuadrant/pipeline/tasks/dynamic.rs process_dynamic_response", "crates/kuadrant-filter/src/kuadrant/pipeline/executor.rs digest", "crates/kuadrant-filter/src/kuadrant/context.rs CelScope"]}
{"id": "C11", "title": "Teardown runs at most once, and exactly once when the pipeline ends", "statement": "The teardown actions of a request (trace export) are executed at most once; they have been executed when the pipeline reports completion or the request was ended early, and not before all other work is finished or the request was ended early.", "quantifier": "every pipeline, host and schedule", "why_tests_cant": "completion can be reached from any callback; double teardown would need a particular interleaving", "anchors": ["crates/kuadrant-filter/src/kuadrant/pipeline/executor.rs execute_teardown, eval, digest", "crates/kuadrant-filter/src/kuadrant/pipeline/tasks/export_traces.rs"]}
{"id": "C12", "title": "Each response is processed at most once", "statement": "A gRPC response whose token is not in flight causes the same effects as a plain re-evaluation, and delivering the same token a second time finds it not in flight unless the host reused it.", "quantifier": "every reachable state and token", "why_tests_cant": "all histories of tokens", "anchors": ["crates/kuadrant-filter/src/kuadrant/pipeline/executor.rs digest"]}
{"id": "C13", "title": "Response status and size never leak between calls", "statement": "Between callbacks the slot holding the current gRPC response's status and size is empty, so storing a new response always succeeds and every response processor sees the status and size of its own response.", "quantifier": "every pipeline, host and schedule", "why_tests_cant": "a processor that forgot to consume the slot would poison an arbitrary later response", "anchors": ["crates/kuadrant-filter/src/kuadrant/context.rs set_grpc_response_data, get_grpc_response_data", "crates/kuadrant-filter/src/kuadrant/pipeline/executor.rs digest", "crates/kuadrant-filter/src/kuadrant/pipeline/tasks/mod.rs noop_response_processor"]}
{"id": "C14", "title": "Failure-free pipelines complete", "statement": "If no evaluation is pending or fails and calls in flight are answered successfully, then when no call is in flight the queue is empty: the pipeline reports completion and no action is left behind.", "quantifier": "every action set compiled from configuration, every host and schedule satisfying the assumption", "why_tests_cant": "liveness over all dependency graphs and response orders", "anchors": ["crates/kuadrant-filter/src/kuadrant/pipeline/executor.rs eval, process_tasks", "crates/kuadrant-filter/src/kuadrant/pipeline/blueprint.rs compute_dependencies"]}
{"id": "C15", "title": "The end of a response body is held until the pipeline has finished", "statement": "At the end of the response body the filter answers Continue if and only if the pipeline has completed; if it answers Pause, the response is resumed by the gRPC response that completes the pipeline.", "quantifier": "every reachable filter state", "why_tests_cant": "depends on all earlier callbacks", "anchors": ["crates/wasm-shim/src/filter/mod.rs on_http_response_body, on_grpc_call_response"]}
{"id": "C16", "title": "Request accounting", "statement": "Every request increments exactly one of the hits, misses and errors-at-build counters; a request that matches no action set is passed through with no effect; a request whose routing cannot be evaluated gets a 500 reply. The denied counter increases by one for each reply the pipeline attempts.", "quantifier": "every factory, host and request", "why_tests_cant": "all configurations and hosts", "anchors": ["crates/wasm-shim/src/filter/mod.rs on_http_request_headers", "crates/kuadrant-filter/src/kuadrant/pipeline/factory.rs build", "crates/kuadrant-filter/src/kuadrant/pipeline/tasks/send_reply.rs"]}
{"id": "C17", "title": "Hostname routing picks the most specific pattern", "statement": "For hostnames made of ordinary host characters the entry used for a request is the exact hostname if configured, else the longest configured wildcard '*.suffix' (or '*') whose suffix matches; a wildcard never matches the bare suffix and a hostname never matches another exact hostname.", "quantifier": "every set of configured hostnames and every request host", "why_tests_cant": "unbounded sets of hostnames and arbitrary strings", "anchors": ["crates/kuadrant-filter/src/kuadrant/pipeline/factory.rs reverse_subdomain, select_blueprint, try_from"]}
{"id": "C18", "title": "Host matching ignores case and port", "statement": "Two request hosts that differ only in ASCII case or in what follows the first colon select the same action set, and the case used in configured hostnames does not matter.", "quantifier": "every configuration and host string", "why_tests_cant": "arbitrary strings", "anchors": ["crates/kuadrant-filter/src/kuadrant/pipeline/factory.rs get_hostname, try_from"]}
{"id": "C19", "title": "First matching action set wins", "statement": "Among the action sets configured for the selected hostname entry the first one in configuration order whose route predicates all hold is used; a pending or failing predicate met before a match stops the selection with an error; if none matches, the developer-mode fallback (if configured) is used.", "quantifier": "every candidate list and predicate outcome", "why_tests_cant": "lists of any length", "anchors": ["crates/kuadrant-filter/src/kuadrant/pipeline/factory.rs select_blueprint, route_predicates_match", "crates/kuadrant-filter/src/data/cel.rs PredicateVec::apply"]}
{"id": "C20", "title": "Request data keys split losslessly", "statement": "Splitting a request data key into domain and field either leaves the key whole with an empty domain or yields a non-empty domain and field whose concatenation with a dot is the key. The cut is at the last dot that has a letter after it.", "quantifier": "every key string", "why_tests_cant": "arbitrary Unicode strings", "anchors": ["crates/kuadrant-filter/src/kuadrant/pipeline/factory.rs domain_and_field_name"]}
{"id": "C21", "title": "Attribute paths survive printing and parsing", "statement": "Parsing the printed form of an attribute path gives back the same path, for paths whose segments contain no backslash; two such different paths never share a cache entry. With backslashes both claims fail.", "quantifier": "every non-empty list of segments", "why_tests_cant": "arbitrary strings with dots and escapes", "anchors": ["crates/kuadrant-filter/src/data/attribute.rs Path Display, From<&str>", "crates/kuadrant-filter/src/kuadrant/cache.rs"]}
{"id": "C22", "title": "Attribute reads are stable and see own writes", "statement": "Once an attribute has been read successfully in a request, later reads return the same value and do not ask the host again, until the filter itself writes that attribute, after which reads return what was written. Not-available and failed reads are never remembered.", "quantifier": "every sequence of reads and writes and every changing host", "why_tests_cant": "arbitrary histories of a changing host", "anchors": ["crates/kuadrant-filter/src/kuadrant/cache.rs", "crates/kuadrant-filter/src/kuadrant/context.rs get_attribute_ref, store_attribute_headers, store_attribute_bytes"]}
{"id": "C23", "title": "Setting headers replaces exactly the named headers", "statement": "After the header action every listed header has exactly one value, the last one listed for it, and all other headers keep their values, multiplicity and relative order.", "quantifier": "every existing header list and every list of pairs", "why_tests_cant": "lists of any length with duplicates", "anchors": ["crates/kuadrant-filter/src/data/headers.rs set", "crates/kuadrant-filter/src/kuadrant/pipeline/tasks/headers.rs"]}
{"id": "C24", "title": "Stored values are pending exactly while a writer is alive", "statement": "A value path is reported pending if and only if no value is stored under it and some action that could still store it has not yet been finished or dropped.", "quantifier": "every sequence of reserve, release and store operations", "why_tests_cant": "reference counts over arbitrary histories", "anchors": ["crates/kuadrant-filter/src/kuadrant/context.rs PathReservation, ValueStore"]}
{"id": "C25", "title": "Prefix lookup of stored values is exact", "statement": "Asking whether any stored or reserved path starts with a prefix is answered yes if and only if such a path exists.", "quantifier": "every set of paths and every prefix", "why_tests_cant": "the implementation inspects only the first key not below the prefix, correctness depends on the ordering of all strings", "anchors": ["crates/kuadrant-filter/src/kuadrant/context.rs ValueStore::has_prefix"]}
{"id": "C26", "title": "Response variables are visible only to the action and its reply actions", "statement": "A variable bound by the response of action A is visible to an action if and only if that action is A or nested below A in the reply tree; action 1 never sees variables of action 10 or vice versa. When several enclosing actions bind the same name the innermost one wins.", "quantifier": "every set of action identifiers and bindings", "why_tests_cant": "arbitrary trees of actions", "anchors": ["crates/kuadrant-filter/src/kuadrant/context.rs is_ancestor, CelScope::new_ctx"]}
{"id": "C27", "title": "Server-sent events do not depend on chunk boundaries", "statement": "The sequence of events obtained from a body split into chunks at character boundaries equals the sequence obtained from the whole body, however it is split, also between CR and LF.", "quantifier": "every text and every split into chunks", "why_tests_cant": "number of splits is exponential", "anchors": ["crates/kuadrant-filter/src/kuadrant/pipeline/tasks/store/sse_body_parser.rs EventParser", "crates/kuadrant-filter/src/kuadrant/pipeline/tasks/store/sse_body_parser/sse_line_parser.rs"]}
{"id": "C28", "title": "Server-sent event decoding follows the event-stream format", "statement": "The events produced are those obtained by splitting the text into lines at CRLF, LF or CR, grouping lines into blocks ended by an empty line and interpreting the fields event, data, id and retry, comments and unknown fields being ignored; a block without data yields no event.", "quantifier": "every text", "why_tests_cant": "arbitrary text", "anchors": ["crates/kuadrant-filter/src/kuadrant/pipeline/tasks/store/sse_body_parser.rs", "crates/kuadrant-filter/src/kuadrant/pipeline/tasks/store/sse_body_parser/sse_line_parser.rs"]}
{"id": "C29", "title": "The value used from an event stream is the second to last event", "statement": "After any sequence of chunks the event kept for extraction is the second to last event of the whole stream, and none if fewer than two events arrived.", "quantifier": "every sequence of events", "why_tests_cant": "streams of any length", "anchors": ["crates/kuadrant-filter/src/kuadrant/pipeline/tasks/store/sse_body_parser.rs push_event", "crates/kuadrant-filter/src/kuadrant/pipeline/tasks/token_usage.rs push_event"]}
{"id": "C30", "title": "Body bytes reach the parser exactly once", "statement": "If the host accumulates the body while the filter reads it, the JSON body parser is fed exactly the body, each byte once and in order, whatever the chunk sizes and however often the action is re-evaluated. If the host instead hands over each chunk separately and the action is evaluated once for each, the event-stream parser and token counting are fed exactly the body.", "quantifier": "every sequence of body callbacks", "why_tests_cant": "arbitrary chunk sizes and re-evaluations", "anchors": ["crates/kuadrant-filter/src/kuadrant/pipeline/tasks/store.rs StoreTask::apply", "crates/kuadrant-filter/src/kuadrant/pipeline/tasks/token_usage.rs", "crates/kuadrant-filter/src/kuadrant/pipeline/tasks/store/json_body_parser.rs", "crates/kuadrant-filter/src/kuadrant/pipeline/tasks/store/sse_body_parser.rs"]}
{"id": "C31", "title": "JSON scalars are typed canonically", "statement": "The text of every 64-bit signed integer is read back as that integer, the text of a larger unsigned 64-bit integer as that unsigned integer, true, false and null as themselves.", "quantifier": "every 64-bit integer and every text", "why_tests_cant": "64-bit ranges", "anchors": ["crates/kuadrant-filter/src/kuadrant/pipeline/tasks/store/body_parser.rs parse_json_scalar"]}
{"id": "C32", "title": "Configuration strings cannot break out of generated CEL literals", "statement": "Escaping a configuration string and reading it back as the contents of a double-quoted CEL string literal gives the original string, and the escaped text contains no unescaped quote, newline or carriage return.", "quantifier": "every string", "why_tests_cant": "arbitrary strings", "anchors": ["crates/kuadrant-filter/src/configuration/legacy_translation.rs escape_cel_string"]}
{"id": "C33", "title": "Joined predicates mean conjunction", "statement": "The predicate generated from a list of predicates holds if and only if all of them hold, and the generated text parses as the conjunction of the given predicates whatever operators they contain.", "quantifier": "every list of predicates", "why_tests_cant": "arbitrary expressions", "anchors": ["crates/kuadrant-filter/src/configuration/legacy_translation.rs join_predicates"]}
{"id": "C34", "title": "Authorization replies are decided totally and fail closed", "statement": "For every authorization response exactly one of these happens: the request is ended with the denied status (403 if it is zero; the status field must be present), the request continues with the given headers, or the request is ended with a 500 because the response uses an unsupported feature or is neither ok nor denied.", "quantifier": "every authorization response", "why_tests_cant": "all combinations of response fields", "anchors": ["crates/kuadrant-filter/src/configuration/legacy_translation.rs auth on_reply", "crates/kuadrant-filter/src/kuadrant/pipeline/tasks/send_reply.rs", "crates/kuadrant-filter/src/kuadrant/pipeline/tasks/fail.rs", "crates/kuadrant-filter/src/kuadrant/pipeline/tasks/headers.rs"]}
{"id": "C35", "title": "Rate limit replies are decided totally and fail closed", "statement": "Overall code OVER_LIMIT ends the request with 429 and the reply's headers, OK continues and adds the reply's headers to the response, anything else ends the request with 500. A report call never ends the request because of its reply.", "quantifier": "every rate limit response", "why_tests_cant": "all codes and header lists", "anchors": ["crates/kuadrant-filter/src/configuration/legacy_translation.rs ratelimit on_reply"]}
{"id": "C36", "title": "Descriptor bookkeeping never loses or overrides a service", "statement": "A service with an embedded descriptor is always available and is never replaced by fetched data; a fetched descriptor stays available; a service waiting for a fetch becomes fetchable again when that fetch's response was handled, successful or not; only missing services are requested. The timer that has them requested runs after an accepted configuration exactly if a service without embedded descriptors is known, and nothing else changes it.", "quantifier": "every sequence of configurations, ticks, dispatch outcomes and responses", "why_tests_cant": "arbitrary histories", "anchors": ["crates/kuadrant-filter/src/filter/descriptor_manager.rs", "crates/wasm-shim/src/filter/root_context.rs"]}
{"id": "C37", "title": "A rejected configuration does not disturb traffic", "statement": "If a new configuration cannot be compiled, the filter keeps serving new requests with the previous configuration, and requests in flight always keep the configuration they started with.", "quantifier": "every sequence of configurations and requests", "why_tests_cant": "arbitrary histories", "anchors": ["crates/wasm-shim/src/filter/root_context.rs process_config, create_http_context"]}
{"id": "C38", "title": "Values survive conversion to protobuf and back", "statement": "Converting a CEL value to a protobuf field and back gives the same value when the value is in the range of the field's type; integers out of the range of 32-bit fields are silently wrapped.", "quantifier": "every value and every scalar, list, map and message type", "why_tests_cant": "nested values of any depth", "anchors": ["crates/kuadrant-filter/src/services/dynamic/converters.rs"]}
{"id": "C39", "title": "gRPC request paths are recognised exactly", "statement": "A path is read as service and method if and only if it is '/service/method' with both parts non-empty and no further slash in the method; formatting and parsing are inverse. An expression that refers to request.grpc sees service and method there if the host says that the content type begins with application/grpc and the path has that form; otherwise it sees nothing there.", "quantifier": "every path string, every content type, every expression and every state of the host", "why_tests_cant": "arbitrary strings", "anchors": ["crates/kuadrant-filter/src/data/grpc.rs"]}
{"id": "C40", "title": "Header values from CEL are extracted faithfully", "statement": "A list of two-element string lists or key/value structures is turned into exactly those header pairs in order; entries of another shape are dropped and never invented.", "quantifier": "every CEL value", "why_tests_cant": "nested values", "anchors": ["crates/kuadrant-filter/src/services/dynamic/converters.rs cel_value_to_header_pairs"]}
{"id": "C41", "title": "Span buffer is bounded and keeps the newest spans", "statement": "The number of buffered spans never exceeds the capacity; what is exported are the most recent spans since the last export, in order; exporting empties the buffer.", "quantifier": "every sequence of span ends and exports", "why_tests_cant": "arbitrary histories", "anchors": ["crates/kuadrant-filter/src/tracing/processor.rs"]}
{"id": "C42", "title": "Query strings are decoded faithfully", "statement": "Looking up a parameter in the decoded query gives the first value given for it (or all values in order when repeats are allowed), parameters are separated by '&', a parameter without '=' has an empty value, and percent escapes of any character are undone, so that a query written for a list of parameters gives these parameters back. The value ends at a second '='.", "quantifier": "every query string", "why_tests_cant": "arbitrary strings", "anchors": ["crates/kuadrant-filter/src/data/cel.rs decode_query_string"]}
{"id": "C43", "title": "String extension functions meet their definitions", "statement": "substring, charAt, split, join, replace, trim and case functions equal their mathematical definitions on all inputs, split and join are inverse, and the offset functions indexOf and lastIndexOf return the number of bytes in front of the first or last match. Deviations: these offsets are not the positions charAt and substring take, lastIndexOf with an offset counts from the offset, an offset inside a character panics, and numbers wrap modulo 2^32.", "quantifier": "every string and argument", "why_tests_cant": "arbitrary strings and offsets", "anchors": ["crates/kuadrant-filter/src/data/cel/strings.rs"]}
{"id": "C44", "title": "CEL data map contains every referenced attribute", "statement": "For every set of attribute paths an expression refers to, navigating the map handed to CEL along a referenced path reaches the attribute's value, unless a prefix of the path is itself referenced, in which case it reaches the value of that prefix.", "quantifier": "every list of paths", "why_tests_cant": "arbitrary sets of overlapping paths", "anchors": ["crates/kuadrant-filter/src/data/cel.rs AttributeMap, data::AttributeMap, new_expression"]}
{"id": "C45", "title": "Attribute references are found in every expression", "statement": "Every chain of field selections starting at an identifier is read as an attribute of the expression, and nothing else is, if fields are selected from identifiers and from results of functions; in every expression each chain is at least covered by a path that begins with it. (A field selected from the result of a method is attached to the attribute the method is applied to, proved as a deviation.) The fields of the bodies the expression waits for are exactly the string literals given to the two body functions.", "quantifier": "every expression tree", "why_tests_cant": "arbitrary expression trees", "anchors": ["crates/kuadrant-filter/src/data/cel.rs properties"]}
{"id": "C46", "title": "Request id is stable and propagated", "statement": "The request id is the incoming x-request-id header if there is one, otherwise one generated id; every use within the request (calls, reply header, response header) sees the same id.", "quantifier": "every sequence of uses and host behaviours", "why_tests_cant": "arbitrary histories", "anchors": ["crates/kuadrant-filter/src/kuadrant/context.rs Tracker"]}
{"id": "C47", "title": "Predicate lists are conjunctions evaluated left to right", "statement": "A list of predicates holds if all hold; it is false if a false predicate occurs before any pending or failing one; the first non-true outcome decides.", "quantifier": "every list of outcomes", "why_tests_cant": "lists of any length", "anchors": ["crates/kuadrant-filter/src/data/cel.rs PredicateVec::apply"]}
{"id": "C48", "title": "Only the configured status reaches the client", "statement": "The status of a direct reply is the one computed by the deny expression when it fits 32 bits, 500 when absent; an empty body is sent as no body; the developer-mode tracking header is appended exactly when configured.", "quantifier": "every deny value", "why_tests_cant": "all values", "anchors": ["crates/kuadrant-filter/src/kuadrant/pipeline/tasks/send_reply.rs"]}
{"id": "C49", "title": "Exported attributes are read back under the name they were written under", "statement": "A value stored under an authorization path with export to the host is written under one property name n (kuadrant. followed by the path), and reading that path as an attribute asks the host for filter_state / wasm.n, for paths whose segments contain neither dots nor backslashes. With a dot inside a segment the name falls apart.", "quantifier": "every path", "why_tests_cant": "arbitrary paths with escapes", "anchors": ["crates/kuadrant-filter/src/data/attribute.rs wasm_prop, Path", "crates/kuadrant-filter/src/kuadrant/context.rs store_attribute_bytes, fetch_attribute"]}
{"id": "C50", "title": "The remote address is the source address without its port", "statement": "source.remote_address is the part of source.address before the first colon; for IPv4 addresses that is the address without the port. For IPv6 addresses it is a fragment (proved as a deviation).", "quantifier": "every source address and port", "why_tests_cant": "arbitrary strings", "anchors": ["crates/kuadrant-filter/src/kuadrant/context.rs remote_address"]}
{"id": "C51", "title": "Numeric and time attributes are decoded exactly", "statement": "Unsigned and signed 64-bit integers and nanosecond timestamps that the host delivers as 8 little-endian bytes are decoded to exactly the encoded value; other lengths are rejected.", "quantifier": "every 64-bit value and every byte string", "why_tests_cant": "2^64 values", "anchors": ["crates/kuadrant-filter/src/data/attribute.rs AttributeValue for u64, i64, DateTime"]}
{"id": "C52", "title": "Repeated headers are presented to expressions joined by commas", "statement": "In the header map handed to CEL every header name has one entry whose value is all its values joined by commas in order of appearance; absent headers have no entry.", "quantifier": "every header list", "why_tests_cant": "lists of any length with repeats", "anchors": ["crates/kuadrant-filter/src/data/headers.rs to_map"]}
{"id": "C53", "title": "An action takes effect at most once per request", "statement": "Whatever callbacks arrive, and also if a response is delivered twice, every configured action and reply action sends at most one call, is recorded as completed or failed at most once, and is not started again once it had an effect; it is started repeatedly only while it waits for data.", "quantifier": "every configuration, request and sequence of callbacks", "why_tests_cant": "duplicates arise only from particular interleavings of requeued, deferred and skipped tasks", "anchors": ["crates/kuadrant-filter/src/kuadrant/pipeline/executor.rs eval, digest, process_tasks", "crates/kuadrant-filter/src/kuadrant/pipeline/blueprint.rs compile"]}
{"id": "C54", "title": "A rate limit action calls its service exactly when its conditions hold", "statement": "The predicate generated for a legacy rate limit action holds if and only if all predicates of the action hold and either it has no conditional data or all predicates of at least one of its conditional data blocks hold, whatever operators the predicates contain. (Predicates ending in a comment and bare conditionals that are alone in one of several blocks are exceptions, proved as deviations.)", "quantifier": "every list of predicates and conditional data blocks", "why_tests_cant": "operator precedence across arbitrary user expressions", "anchors": ["crates/kuadrant-filter/src/configuration/legacy_translation.rs build_ratelimit_predicate, build_descriptor_predicate, join_predicates"]}
{"id": "C55", "title": "Expressions see attributes, stored values, response variables and body fields where they refer to them", "statement": "When an expression is evaluated, following a path it refers to from the variables leads to the current value of that attribute, or to the value stored last at or above that path; response variables in scope are seen under their names unless the name is request, source, destination, metadata or auth or something is stored at or below it; a body field named by a literal is the field's value. (Attributes of connection, response, ratelimit and filter_state are read but not seen, label maps can never be read, roots that are indexed instead of selected from are null and computed body fields are null: proved as deviations.)", "quantifier": "every expression, store history, scope and host", "why_tests_cant": "all combinations of overlapping paths, stored values and names", "anchors": ["crates/kuadrant-filter/src/data/cel.rs Expression::eval, data::AttributeMap, map_to_value, Attribute::get"]}
{"id": "C56", "title": "Exported values keep their meaning", "statement": "When a stored value is handed over to the host, the bytes are a protobuf Struct for a map and a protobuf Value otherwise that reads as the same value again, with numbers as doubles and bytes as text; a value with a part that has no such form is refused as a whole.", "quantifier": "every value, of any depth", "why_tests_cant": "values of any depth, with any keys", "anchors": ["crates/kuadrant-filter/src/services/dynamic/converters.rs MessageConverter::cel_value_to_bytes, cel_to_prost_value, cel_to_prost_struct", "crates/kuadrant-filter/src/data/store.rs"]}
{"id": "C57", "title": "Expressions know exactly the messages of a service", "statement": "For a method's message the types made known to CEL are exactly the message types that can occur in it, other than map entries, each once; the collection ends for types that refer to themselves; the type declared for a field is that of the values the field can hold.", "quantifier": "every set of descriptors, also recursive ones", "why_tests_cant": "all graphs of message types", "anchors": ["crates/kuadrant-filter/src/services/dynamic/converters.rs DescriptorConverter::collect_struct_defs, to_struct_def, protobuf_kind_to_cel_type"]}
{"id": "C58", "title": "Attributes reach expressions with their type and value", "statement": "An attribute with a known type is seen by expressions as the value its bytes mean for this type: text, signed or unsigned number of 64 bits, boolean, bytes or time; an attribute without a known type is seen as the JSON value its text denotes, or as the text itself; bytes without a meaning are an error, an attribute the host lacks is null, and one the host cannot give yet makes the expression wait. (The response headers have no type and can never be read: proved as a deviation.)", "quantifier": "every attribute path and all bytes the host may answer", "why_tests_cant": "all byte strings for each of 44 paths", "anchors": ["crates/kuadrant-filter/src/data/cel.rs Attribute::get, known_attribute_for, json_value_to_cel", "crates/kuadrant-filter/src/data/attribute.rs AttributeValue"]}
{"id": "C59", "title": "A call is the one its action configures", "statement": "A call sent for a configured action goes to the service that the action names, carries the encoding of the value of the action's message expression, is sent only when the action's predicate was true, and holds the request exactly if the action is a guard. It is sent at once when the predicate is true, the message can be computed and encoded and the host accepts it. Of the legacy actions, authorization, rate limit and check calls hold the request and reports do not.", "quantifier": "every configuration, request, sequence of callbacks and call", "why_tests_cant": "the action may be one of any number, at any depth of reply actions, evaluated after any history", "anchors": ["crates/kuadrant-filter/src/kuadrant/pipeline/tasks/dynamic.rs DynamicTask::apply", "crates/kuadrant-filter/src/kuadrant/pipeline/blueprint.rs Action::to_task", "crates/kuadrant-filter/src/configuration/legacy_translation.rs"]}
{"id": "C60", "title": "Nothing happens that is not configured", "statement": "Every call, reply, header replacement, attribute write and stored value of a request is caused by an action of the action set that serves it, evaluated directly before with a true predicate and in view of the values stored so far, and has the value that the action's expression gave. The only exceptions are the header or call of developer mode and the error reply.", "quantifier": "every configuration, request, sequence of callbacks and effect", "why_tests_cant": "a negative statement about all histories", "anchors": ["crates/kuadrant-filter/src/kuadrant/pipeline/tasks", "crates/kuadrant-filter/src/kuadrant/pipeline/executor.rs", "crates/wasm-shim/src/filter/mod.rs"]}
{"id": "C61", "title": "The configuration document means what it says", "statement": "A configuration is accepted for compilation exactly if it has the documented shape, and every setting then has the value written under its key, or the documented default where the key may be left out: request data none, timeout 20 ms, guard, parallel, no reply actions, no export, no conditions. Failure mode, type, endpoint, predicate and terminal have no default; a wrong word, a wrong type or a repeated key rejects the whole document; unknown keys are ignored. A service fails open only if the document says allow. Requests are then served with exactly these action sets, services and settings; request data whose expression cannot be compiled are left out. (An action that has a mistake as a typed action but also a scope is read as a legacy action without its predicate: proved as a deviation.)", "quantifier": "every JSON document", "why_tests_cant": "all documents of any size and nesting, also faulty ones", "anchors": ["crates/kuadrant-filter/src/configuration.rs PluginConfiguration, Service, TypedAction, Action, ActionConfig, DataItem, TimeoutVisitor"]}
{"id": "C62", "title": "The order of the document does not matter", "statement": "Two documents that differ only in the order of the entries of their objects are both accepted or both rejected, and lead to the same configuration in force, trace level, timer and set of requested descriptors, however the hash maps are drained. (What a rejected document leaves behind does depend on the order: proved as a deviation.)", "quantifier": "every pair of documents, every state of the filter", "why_tests_cant": "all permutations at all depths, all hash seeds", "anchors": ["crates/kuadrant-filter/src/configuration.rs PluginConfiguration", "crates/kuadrant-filter/src/kuadrant/pipeline/factory.rs try_from", "crates/wasm-shim/src/filter/root_context.rs on_configure, process_config"]}
{"id": "C63", "title": "Header changes of a request add up", "statement": "Each time the filter replaces the header map of a request or response, the new map is the one it wrote before in this request, or else the one the host had, with some headers set to new values and all others as they were; so no header set earlier is lost. If nobody else changes the map after the filter wrote it, the host has the filter's last map at the end of every callback.", "quantifier": "every configuration, host, request and sequence of callbacks", "why_tests_cant": "changes by several actions in several callbacks, with a cache in between", "anchors": ["crates/kuadrant-filter/src/kuadrant/context.rs store_attribute_headers, get_attribute_ref", "crates/kuadrant-filter/src/kuadrant/cache.rs", "crates/kuadrant-filter/src/kuadrant/pipeline/tasks/headers.rs", "crates/wasm-shim/src/wasm_host.rs set_attribute_map"]}
{"id": "C64", "title": "A request sees one snapshot of each attribute", "statement": "Once an attribute was read for a request it keeps its value in all later callbacks, whatever the host does to it, unless the filter itself writes it. Hence an expression whose attributes were read gives the same value again as long as stored values, body fields and variables are the same. (request.grpc is excepted, since the content type is read from the host each time: proved as a deviation.)", "quantifier": "every configuration, host, request, attribute and sequence of callbacks", "why_tests_cant": "the host may change anything between any two callbacks", "anchors": ["crates/kuadrant-filter/src/kuadrant/cache.rs get_or_insert_with, populate", "crates/kuadrant-filter/src/kuadrant/context.rs get_attribute_ref, ensure_attributes", "crates/kuadrant-filter/src/data/cel.rs Expression::eval, resolve_grpc"]}
{"id": "C65", "title": "Answers of the host mean one thing", "statement": "A property the host does not have yet makes an action wait, a missing one is null and another failure is an error; a response header map that is empty makes an action wait while an empty request header map is an error; parts of bodies likewise; a property is written or the action that writes it fails. A gRPC answer is usable exactly if it is not empty, the host hands its bytes over and they decode. (A message with only default values is encoded in no bytes and hence treated as a failure: proved as a deviation.)", "quantifier": "every host state and answer", "why_tests_cant": "all status codes at all times of a request", "anchors": ["crates/wasm-shim/src/wasm_host.rs WasmHost", "crates/kuadrant-filter/src/kuadrant/context.rs fetch_attribute"]}
{"id": "C66", "title": "The host is asked for exactly what the history says", "statement": "The calls the host gets during a request are, in order, the gRPC calls, trace exports, replies, header maps and properties of the request's history: gRPC calls go to the configured upstream, service and method with the configured timeout, carry the message built by the action and the request id as last header. The only other calls are ones that the host refused.", "quantifier": "every configuration, host, request and sequence of callbacks", "why_tests_cant": "a statement about all calls of all histories", "anchors": ["crates/wasm-shim/src/wasm_host.rs WasmHost", "crates/kuadrant-filter/src/services/mod.rs Service::dispatch", "crates/kuadrant-filter/src/kuadrant/context.rs"]}
{"id": "C67", "title": "The request id is only data in the tracking header", "statement": "In developer mode the header sent back holds the request id and nothing else: an id without quotes, backslashes and line breaks is a literal of the expression built for it. (An id with a quote is not: it is evaluated as part of the expression, or, if that makes no expression, crashes the filter for this request. Both are proved as deviations.)", "quantifier": "every header name, request id, configuration and request", "why_tests_cant": "the id comes from the client and may be any text", "anchors": ["crates/kuadrant-filter/src/kuadrant/pipeline/blueprint.rs Action::to_task, tracing_header expression", "crates/kuadrant-filter/src/kuadrant/context.rs request_id"]}
{"id": "C68", "title": "A request goes on only after its guard calls were answered well", "statement": "When the filter lets the stream go on, by resuming it or by answering a callback with Continue, and nothing ended the request, every guard call that was sent has been answered. If its service has failure mode deny, the answer had the status success and, where the configuration says what is done about answers, could be decoded. An authorization service that answered asked for the request to proceed, a rate limit service said the request is within its limits, and the headers and metadata of the answer were set before the request goes on. (A guard action that has to wait for an action that is no guard, or for body data, is only started after the request headers went on: proved as a deviation.)", "quantifier": "every configuration, host, request, sequence of callbacks and order of responses", "why_tests_cant": "the gate must hold at every callback of every history, whatever the responses and their order", "anchors": ["crates/wasm-shim/src/filter/kuadrant_filter.rs", "crates/kuadrant-filter/src/kuadrant/pipeline/executor.rs Pipeline::requires_pause", "crates/kuadrant-filter/src/kuadrant/pipeline/tasks/failure_mode.rs", "crates/kuadrant-filter/src/kuadrant/pipeline/tasks/dynamic.rs", "crates/kuadrant-filter/src/kuadrant/pipeline/blueprint.rs"]}
{"id": "C69", "title": "Calls carry the trace context of their own request", "statement": "Every call a request makes sends the trace and the baggage that the headers of this request carry (values of repeated headers joined by commas), as the non-empty headers the propagators make of them: always for a request without tracing that starts while no request with tracing is open, for a request without tracing whose headers carry a trace even then, and for a request with tracing whose spans are recorded and that no other request with tracing overlaps, which also never sends a span of an earlier request. It does not hold of overlapping requests: the span of a request stays entered between callbacks, so a task of one request can send the trace of another, and a request without trace headers inherits the trace and the baggage of an open one. It does not hold either if spans are entered for the log but not recorded: then no trace is sent.", "quantifier": "every propagator, headers, filter of spans, and interleaving of requests in a virtual machine", "why_tests_cant": "the context depends on the interleaving of all requests of the virtual machine; tests drive one request at a time", "anchors": ["crates/kuadrant-filter/src/kuadrant/context.rs ReqRespCtx::extract_trace_context, enter_request_span, end_request_span, get_tracing_headers", "crates/kuadrant-filter/src/tracing/propagation.rs HeadersExtractor, HeadersInjector", "crates/kuadrant-filter/src/kuadrant/pipeline/tasks/tracing_decorator.rs", "crates/kuadrant-filter/src/kuadrant/pipeline/tasks/export_traces.rs"]}
{"id": "C70", "title": "A configured service is called where and how its configuration says", "statement": "Every call of a request goes to the endpoint that the configuration gives for the service the action names, to the gRPC service and method of the service's type (or the configured ones for a dynamic service), with the timeout configured for that service; and a failing call is treated by the failure mode configured for that service. A configuration with a dynamic service that lacks its gRPC service or method is rejected.", "quantifier": "every configuration document in force, request and sequence of callbacks", "why_tests_cant": "any number of services of any types under any names", "anchors": ["crates/kuadrant-filter/src/services/mod.rs ServiceInstance", "crates/kuadrant-filter/src/kuadrant/pipeline/factory.rs try_from", "crates/kuadrant-filter/src/kuadrant/pipeline/blueprint.rs to_tasks", "crates/kuadrant-filter/src/services/auth.rs", "crates/kuadrant-filter/src/services/rate_limit.rs", "crates/kuadrant-filter/src/services/dynamic.rs"]}
{"id": "C71", "title": "Response body fields that a call refers to are looked for", "statement": "If a call refers to a field of the response body, in its predicate, its message, its reply actions at any depth or the request data, then the field is looked for in the response body ahead of the call; nothing else is looked for. (It holds of calls only: an action of another kind that refers to a field of the response body at the top level is never carried out, and the end of the response body is held back for good: proved as a deviation.)", "quantifier": "every configuration and request", "why_tests_cant": "reply actions nest to any depth", "anchors": ["crates/kuadrant-filter/src/kuadrant/pipeline/blueprint.rs collect_body_values, to_tasks", "crates/kuadrant-filter/src/kuadrant/pipeline/tasks/token_usage.rs", "crates/wasm-shim/src/filter/kuadrant_filter.rs on_http_response_body"]}
{"id": "C72", "title": "Finished spans are exported whole, in order and at most once", "statement": "At the teardown of a traced request one export call goes to the configured tracing service; it carries the newest hundred spans that ended since the last teardown, the request's own span last, under one resource and one scope. No call is made when there is no span. Over any history no span is carried twice, and if never more than a hundred spans wait, each is carried once. (Finding: the spans of an export call that the host refuses are lost.)", "quantifier": "all histories of ended spans and request teardowns, with any answers of the host to the export calls", "why_tests_cant": "Buffer limits, several requests sharing the buffer and refused calls interact over histories of any length; tests export one or two spans.", "anchors": ["crates/kuadrant-filter/src/services/tracing.rs build_export_request, dispatch_export", "crates/kuadrant-filter/src/kuadrant/pipeline/tasks/export_traces.rs", "crates/kuadrant-filter/src/tracing/processor.rs"]}
{"id": "C73", "title": "Actions wait for the values they refer to", "statement": "Whenever an action is run, the values reserved are exactly those of the store actions still to come: not completed, not failed, and, for reply actions, with their call still to come, in flight or answered well. So an action sends a call, changes headers, stores a value or denies a request only after every value its predicate or expression refers to was stored, or when no action that would store it can still do so. (Findings: the request itself does not wait for an action that waits for a later one; writers below a path are not waited for; actions that wait for each other never act.)", "quantifier": "all configurations, all requests, all answers of the host and all schedules of events in which the host gives no call the token of a call in flight", "why_tests_cant": "Reservations live in tasks that move between queue, calls and pending responses and are dropped implicitly; whether one is held too long or too short depends on the whole history.", "anchors": ["crates/kuadrant-filter/src/kuadrant/context.rs PathReservation, ValueStore", "crates/kuadrant-filter/src/kuadrant/pipeline/tasks/store.rs StoreTask::new", "crates/kuadrant-filter/src/kuadrant/pipeline/tasks/dynamic.rs", "crates/kuadrant-filter/src/data/cel.rs map_to_value"]}
{"id": "C74", "title": "Log and trace levels", "statement": "Nothing is logged by the filter's events before a configuration was read; from then on an event leaves exactly one line, with its own level and its message, if it is no more detailed than the level the host had when it was last asked, that is when the last configuration was read or the last request began. A host that does not say its level gets warnings and errors. The level of traces is that of the last configuration that was read, whether it was accepted or not: the level it names in capitals, warnings for any other word or none, and no filter without a tracing service.", "quantifier": "all histories of configurations, new requests, other callbacks and events, with any answers of the host", "why_tests_cant": "Two global filters are installed once and reloaded later from two places; what is in force depends on the whole history.", "anchors": ["crates/kuadrant-filter/src/tracing/mod.rs init_observability, set_log_level", "crates/kuadrant-filter/src/tracing/log_layer.rs LogLayer", "crates/wasm-shim/src/wasm_host.rs current_log_filter", "crates/wasm-shim/src/filter/root_context.rs on_configure, create_http_context"]}
{"id": "C75", "title": "Counters", "statement": "The host is told of the six counters once, before the first is increased. After any history, it was asked to increase each counter it accepted, always by one, exactly as often as what it counts occurred in the requests so far: configurations received, hits, misses, responses begun, replies attempted and errors. A counter that the host refused is left alone, and the others still count. No request is counted twice as a hit or a miss. (Finding: a denied request is counted as allowed too when the host runs the response callbacks for the filter's reply.)", "quantifier": "all histories of callbacks over any number of requests, and all answers of the host when counters are defined", "why_tests_cant": "Counters are global, created lazily on first use, and shared by overlapping requests.", "anchors": ["crates/kuadrant-filter/src/metrics/mod.rs Metrics, Counter", "crates/wasm-shim/src/wasm_host.rs WasmMetricsBackend", "crates/wasm-shim/src/filter/kuadrant_filter.rs", "crates/wasm-shim/src/filter/root_context.rs on_configure"]}
{"id": "C76", "title": "What translated actions ask the services", "statement": "Every call that a legacy rate limit action sends asks for the domain that the configuration gives (the action's scope unless an item is called ratelimit.domain), the number of hits it gives (one unless an item is called ratelimit.hits_addend), and the descriptors it gives: one with the entries of all the blocks whose predicates hold, in order, with static texts as they are and the values of expressions as text, and one with the request data under their keys. Every call that a legacy authorization action sends tells the time, host, method, scheme, path, protocol and headers of the request, address and port of both ends of the connection, the scope, and the request data grouped by domain; data that depend on the result of the authorization are sent as text of the expression. All values are those at the moment of the call. (Finding: domain and hits of a block count although the block's predicates do not hold.)", "quantifier": "all legacy actions, request data, values of expressions and attributes, schedules and histories of callbacks", "why_tests_cant": "The request is assembled as text, parsed and evaluated by an interpreter; tests compare texts for a few configurations, not what the service is asked.", "anchors": ["crates/kuadrant-filter/src/configuration/legacy_translation.rs translate_legacy_ratelimit_to_typed, translate_legacy_report_to_typed, translate_legacy_auth_to_typed"]}
{"id": "C77", "title": "No action of a request is forgotten", "statement": "At the end of every callback of a request that has not been ended early, each action that was ever started is completed, failed, has a call whose answer is still to come, or was started again in this very callback and still had to wait for data. More generally each action of the set that serves the request is completed or held back for one of these reasons: it failed, its call is out, it had to wait for data in this callback, or it is a call that must run after another action that is itself held back. In particular a call whose predecessors are completed is made in the same callback.", "quantifier": "all action sets, configurations, hosts, histories of callbacks and answers that do not reuse tokens", "why_tests_cant": "An action can wait many times, in several queues, and be put back in several places of the code; a test that follows one history cannot show that no other history loses one.", "anchors": ["crates/kuadrant-filter/src/kuadrant/pipeline/executor.rs eval, digest, process_tasks", "crates/kuadrant-filter/src/kuadrant/pipeline/tasks/mod.rs TaskOutcome", "crates/wasm-shim/src/filter/mod.rs"]}
{"id": "C78", "title": "What a service answers is what expressions see", "statement": "The answer of a service, a message of the type that the called method returns, is presented to expressions as a struct with the name of that type that says the same. A field that the service has set has its value, at every depth: numbers, texts and bytes are the same, lists and maps have the same entries, a timestamp is that time, and the free-form types for JSON are the JSON that they stand for. A field that was not set is missing when the field keeps track of being set and otherwise has its zero value. An answer is not read only if there is a timestamp in it that is no time.", "quantifier": "every message of every type, whatever descriptors the types have", "why_tests_cant": "messages nest to any depth and the types come from descriptors that are only known when the filter runs", "anchors": ["crates/kuadrant-filter/src/services/dynamic/converters.rs dynamic_message_to_cel, proto_value_to_cel_val, proto_timestamp_to_cel_timestamp, unwrap_proto_struct, unwrap_proto_value, unwrap_proto_list_value"]}
{"id": "C79", "title": "The message a service sends decides the request", "statement": "When the rate limiter or the authorization service answers a call that guards a request with a message of its type, what that message says is what happens. OVER_LIMIT ends the request with status 429 and exactly the headers the message lists; OK lets it go on and those headers are set in the response; any other code ends it with status 500. A denial ends the request with the status, headers and body the message has, 403 standing for an unset code; an approval lets it go on, sets the headers it lists in the request and keeps its metadata; an approval that asks for something unsupported, and an answer that is neither, end it with status 500. A denial that has no status message is the exception: it is not carried out.", "quantifier": "every answer of these types, with every field at every depth, every host, and every history before the answer", "why_tests_cant": "messages, configurations, what hosts do and the history before an answer are unbounded, and the rule is spread over decoding, expressions, generated reply actions and the executor", "anchors": ["crates/kuadrant-filter/src/services/dynamic/converters.rs dynamic_message_to_cel", "crates/kuadrant-filter/src/services/dynamic.rs get_response_cel_value, parse_message", "crates/kuadrant-filter/src/configuration/legacy_translation.rs build_auth_on_reply, build_ratelimit_on_reply"]}
{"id": "C80", "title": "The messages that the services are sent", "statement": "Every message sent to a rate limit service for an action of the configuration has the domain, the hits and the descriptors the action is configured to ask for, with the values the request has at that moment, and no other field. Every message sent to an authorization service for an action has time, host, method, scheme, path, protocol and headers of the request, address and port of both ends of the connection, the scope of the action and the request data by domain, and no other field. The number of hits and the ports are sent with 32 bits, so that a request for 2^32 hits asks for none.", "quantifier": "every configuration, every request, every value of its attributes, and every history before the call", "why_tests_cant": "configurations and attribute values are unbounded, and the rule is spread over the generated expressions, their evaluation and the conversion to protobuf", "anchors": ["crates/kuadrant-filter/src/configuration/legacy_translation.rs build_ratelimit_message_builder, build_auth_message_builder", "crates/kuadrant-filter/src/services/dynamic/converters.rs cel_to_dynamic_message", "crates/kuadrant-filter/src/services/dynamic.rs dispatch_value"]}
{"id": "C81", "title": "Services are told what the proxy says about the request", "statement": "Every message sent to an authorization service for an action of the configuration tells the time, host, method, scheme, path, protocol, headers and the two ends of the connection as the proxy reports them for the request, whatever happened before in the request: the filter does not put cached, stale or other values in their place, unless a store action keeps a value under such a name or the filter itself has changed the headers. The same holds of the attributes that the hits, the conditions and the descriptors of a message to a rate limit service are computed from.", "quantifier": "every proxy that keeps reporting the same attributes, every configuration, every sequence of calls and answers before the message", "why_tests_cant": "it composes the cache of attributes, the variables of expressions, their evaluation, the generated texts, the conversion to protobuf and the history of the filter", "anchors": ["crates/kuadrant-filter/src/data/attribute.rs wasm_prop", "crates/kuadrant-filter/src/kuadrant/context.rs get_attribute_ref", "crates/kuadrant-filter/src/data/cel.rs", "crates/kuadrant-filter/src/kuadrant/cache.rs AttributeCache", "crates/kuadrant-filter/src/configuration/legacy_translation.rs build_auth_message_builder, build_ratelimit_message_builder", "crates/kuadrant-filter/src/services/dynamic.rs dispatch_value"]}
{"id": "C82", "title": "Requests are routed by what the proxy says about them", "statement": "A request is served by the first action set of the configuration, among those listed for the most specific hostname that covers the host the proxy reports, whose route predicates are all true, as expressions of the language, of the attributes the proxy reports for the request. If there is none, or no hostname covers the host, no action set serves it, and nothing is done for it unless developer mode is on.", "quantifier": "every proxy, every configuration the filter accepts, every request whose reported attributes decide the predicates", "why_tests_cant": "it composes the reading of properties, their types, the variables of expressions, their evaluation, the index of hostnames and the order of action sets", "anchors": ["crates/kuadrant-filter/src/kuadrant/pipeline/factory.rs PipelineFactory::build", "crates/kuadrant-filter/src/data/cel.rs PredicateVec", "crates/kuadrant-filter/src/kuadrant/context.rs get_attribute_ref", "crates/kuadrant-filter/src/data/attribute.rs"]}
{"id": "C83", "title": "Services are called when what the proxy says meets the conditions of their action", "statement": "When an action of the older form for an authorization or rate-limiting service is started, and its conditions are true, as an expression of the language, of the attributes the proxy gives for the request, the very next thing the filter does is to call the service of the action, with the encoding of the message that the language gives the request text for those attributes. For the first action of a set this is the first thing done for the request, unless tokens are to be counted for it. If the conditions are false of them, the service is not called for that action, whatever happens during the request.", "quantifier": "every proxy that accepts calls, every configuration the filter accepts, every action of the older form, every sequence of callbacks", "why_tests_cant": "it composes the translation of actions, the reading of properties, the evaluation of conditions and messages, the encoding and the call, at any moment of any request", "anchors": ["crates/kuadrant-filter/src/configuration/legacy_translation.rs", "crates/kuadrant-filter/src/kuadrant/pipeline/tasks/dynamic.rs", "crates/kuadrant-filter/src/data/cel.rs Predicate", "crates/kuadrant-filter/src/kuadrant/context.rs get_attribute_ref"]}

{"id": "C01", "title": "LRU cache stays structurally sound and within its size budget", "statement": "After any sequence of Get and Invalidate calls on a cache built by caches.NewLRU, Keys() lists no key twice, the tracked total equals the sum of the sizes of the cached entries, that total never exceeds maxSize, and no call panics, provided onMiss reports non-negative sizes and maxSize is non-negative.", "quantifier": "every operation sequence, every onMiss behaviour (value, size >= 0, error) per call, every non-decreasing clock, every maxSize >= 0", "why_tests_cant": "the index map, heap order and byte budget interact; a wrong index only shows after specific interleavings of eviction and invalidation", "anchors": ["utils/caches/lru.go:LRU.Get", "utils/caches/lru.go:LRU.Invalidate", "utils/caches/lru.go:lruHeap"]}
{"id": "C02", "title": "LRU cache returns the value it was given, and calls onMiss exactly when it must", "statement": "Get(k) returns HIT with the value produced by the most recent successful onMiss(k) that was stored and neither evicted nor invalidated since, without calling onMiss; otherwise it calls onMiss(k) exactly once and returns its value with MISS (stored), NO (size 0, not stored) or ERR (error, not stored).", "quantifier": "every reachable cache state, key and onMiss outcome", "why_tests_cant": "a stale or foreign value can be returned only if the position index drifts from the heap; samples rarely reach that", "anchors": ["utils/caches/lru.go:LRU.Get"]}
{"id": "C03", "title": "LRU.Invalidate removes exactly the named key", "statement": "Invalidate(k) removes k if cached, leaves every other cached key with its value, and lowers the tracked total by exactly the size of the removed entry; it is a no-op when k is not cached.", "quantifier": "every reachable cache state whose entries were inserted at times after the zero time, every key", "why_tests_cant": "the code pops the heap root and trusts that it is k; that depends on the heap order for all sizes", "anchors": ["utils/caches/lru.go:LRU.Invalidate"]}
{"id": "C04", "title": "LRU eviction removes oldest-inserted entries first and no more than needed", "statement": "When a MISS overflows the budget, the evicted entries are the ones inserted earliest, and evicting stops as soon as the total fits; entries inserted later than any survivor are never evicted.", "quantifier": "every reachable cache state, strictly increasing clock", "why_tests_cant": "heap sift bugs show only for particular shapes and sizes", "anchors": ["utils/caches/lru.go:LRU.Get", "utils/caches/lru.go:lruHeap.Less"]}
{"id": "C05", "title": "LRU cache evicts the least recently used entry", "statement": "A HIT on a key makes it the most recently used, so that the next eviction prefers every key that was used before it. (The code violates this: the access time is written to a copy.)", "quantifier": "every reachable cache state and access pattern", "why_tests_cant": "the existing tests only insert more than they re-read", "anchors": ["utils/caches/lru.go:LRU.Get"]}
{"id": "C06", "title": "Memoising cache refines a partial function", "statement": "caches.Mem: Get(k) after a successful Get(k) with no Invalidate(k) in between returns the same value with HIT and does not call the miss function; errors are never cached; Invalidate affects only its key.", "quantifier": "every operation sequence and every miss behaviour", "why_tests_cant": "needs all histories", "anchors": ["utils/caches/mem.go:memCache.Get", "utils/caches/mem.go:memCache.Invalidate"]}
{"id": "C07", "title": "Request cache serves a stored result until its TTL passes", "statement": "For sequential use, Request(k) returns HIT with the stored value and error without fetching while the entry is cached and now <= expiry; it fetches exactly once when the entry is new, expired or was stored with ttl <= 0; errors with positive ttl are cached and returned as errors.", "quantifier": "every sequential history, clock, ttl (including zero and negative) and fetch outcome", "why_tests_cant": "boundary instants and negative TTLs are not sampled", "anchors": ["utils/caches/request.go:RequestCache.Request"]}
{"id": "C08", "title": "Request cache never runs two fetches for one entry at once", "statement": "For any interleaving of concurrent Request calls, two fetches on the same cache entry are never in flight together, and a call which returns HIT returns the result of a completed fetch for its key. (The stronger claim that concurrent callers share a single fetch is false and is refuted with an explicit schedule.)", "quantifier": "every interleaving of any number of Request and Invalidate calls", "why_tests_cant": "scheduling dependent", "anchors": ["utils/caches/request.go:RequestCache.Request"]}
{"id": "C09", "title": "Split partitions a slice in order within the size limit", "statement": "lists.Split(in, m) with m > 0 never indexes out of range, Flatten of the result is in, every chunk has at most m elements, no chunk is empty unless in is empty, and the number of chunks is the minimum ceil(len/m) (1 for the empty slice); chunk sizes except the last are all equal. m <= 0 panics.", "quantifier": "every slice and every m", "why_tests_cant": "balanced chunking arithmetic has rare (len, m) corner cases", "anchors": ["utils/lists/group.go:Split", "utils/lists/group.go:Flatten"]}
{"id": "C10", "title": "Reverse reverses in place and is an involution", "statement": "lists.Reverse leaves the slice holding the same elements in exactly reverse order, without out-of-range access; doing it twice restores the slice.", "quantifier": "every slice (odd and even lengths)", "why_tests_cant": "unbounded lengths", "anchors": ["utils/lists/reverse.go:Reverse"]}
{"id": "C11", "title": "Permute enumerates every permutation exactly once", "statement": "The generator from lists.Permute returns true exactly n! times for n elements, the arrangements seen are pairwise distinct as position permutations and cover all permutations of the original positions, each step after the first swaps two adjacent elements, and afterwards it keeps returning false leaving the slice alone.", "quantifier": "every slice length n and every element type", "why_tests_cant": "n! grows too fast to test beyond tiny n", "anchors": ["utils/lists/perm.go:Permute", "utils/lists/perm.go:permGen.next"]}
{"id": "C12", "title": "Set and AddUnique behave as mathematical sets", "statement": "lists.Set: Add returns true iff the element was absent, Remove returns true iff it was present, Has agrees with membership, All lists each member once; AddUnique appends iff absent and never introduces a duplicate. (Violated: elements may be floats, and NaN is added again and again, never found nor removed; proved for elements equal to themselves.)", "quantifier": "every operation sequence", "why_tests_cant": "needs all histories", "anchors": ["utils/lists/set.go:Set", "utils/lists/lists.go:AddUnique", "utils/lists/lists.go:Contains"]}
{"id": "C13", "title": "OrderedMap refines an insertion-ordered association list", "statement": "For any sequence of Put, Delete, Get, Range, Len, Keys, Values the results equal those of an association list in which Put on a present key updates in place, Put on an absent key appends, and Delete removes; Put and Delete return the previous value and whether it existed. No operation dereferences a deleted slot.", "quantifier": "every operation sequence on a map from NewOrderedMap", "why_tests_cant": "tombstones and the index interact over long histories", "anchors": ["utils/ordered_map.go:OrderedMap"]}
{"id": "C14", "title": "OrderedMap.Range stops at the first error and visits a prefix", "statement": "Range calls the callback on live pairs in insertion order, stops right after the first non-nil error and returns exactly that error; it returns nil iff every callback returned nil.", "quantifier": "every reachable map and callback", "why_tests_cant": "needs all callbacks", "anchors": ["utils/ordered_map.go:OrderedMap.Range"]}
{"id": "C15", "title": "Timed TryLock never reports a lock it does not hold nor keeps one it gave up", "statement": "In every interleaving of a TryLock(d) caller, its helper goroutine and any other users of the mutex: when it returns true the mutex is held on behalf of the caller and stays held until the caller unlocks; when it returns false its helper releases the mutex if it ever acquires it; mutual exclusion is never broken and the helper never unlocks a mutex it does not hold.", "quantifier": "every interleaving of any number of TryLock callers and plain lockers", "why_tests_cant": "race windows between the timer, the channel and the mutex", "anchors": ["utils/sync/mutex.go:Mutex.TryLock"]}
{"id": "C16", "title": "sync.Map wrapper behaves like a map, except that iterating panics on stored nil interfaces", "statement": "Load, Store, LoadOrStore, LoadAndDelete, Delete, GetOrStore, Get and IsEmpty agree with an abstract map; Range, RangeErr and Map agree with it too as long as no nil interface value is stored, and panic when one is.", "quantifier": "every operation sequence", "why_tests_cant": "nil interface values are rarely stored in tests", "anchors": ["utils/sync/map.go:Map"]}
{"id": "C17", "title": "ReadAll returns every byte of well separated readers but loses bytes delivered with an error", "statement": "utils.ReadAll returns the concatenation of the chunks read before the first error, with nil error iff that error is io.EOF; bytes delivered by the same Read call that reports the error are dropped. After the context is cancelled, the goroutine completes at most the Read call it is in and starts no other.", "quantifier": "every reader behaviour (sequence of (n, err) results)", "why_tests_cant": "readers that return n > 0 together with EOF are legal but uncommon", "anchors": ["utils/io.go:ReadAll"]}
{"id": "C18", "title": "ErrorGate swallows exactly its own marker", "statement": "utils.ErrorGate(f) returns nil iff f returned nil or an error whose tree contains the marker passed to f; any other error is returned unchanged.", "quantifier": "every f and every error tree including joined errors", "why_tests_cant": "error trees are unbounded", "anchors": ["utils/errors.go:ErrorGate"]}
{"id": "C19", "title": "Context errors carry one stack, that of the innermost wrap", "statement": "ctx.NewErrorf and ctx.WrapError add a stack and context exactly when the error tree has none yet; wrapping again never adds a second one along a single chain, keeps the message, and errors.Is / errors.As find the original causes; WrapError(nil) is nil.", "quantifier": "every chain of wraps", "why_tests_cant": "chains are unbounded", "anchors": ["ctx/error.go:NewErrorf", "ctx/error.go:WrapError", "ctx/error.go:Error.Is"]}
{"id": "C20", "title": "ErrorCode reports the outermost HTTP code in an error tree", "statement": "http.ErrorCode(err, def) is the Code of the first http.Error met in a pre-order walk of the error tree and def when there is none.", "quantifier": "every error tree and default", "why_tests_cant": "trees are unbounded", "anchors": ["http/error.go:ErrorCode", "http/error.go:NewErrorf"]}
{"id": "C21", "title": "Tags are visited parents first, in order, with duplicates, stopping at the first error", "statement": "ctx.RangeTag visits every WithTag entry along the context chain from root to leaf, across any other context wrappers, each exactly once, stops at the first callback error and returns it; log.ExtractTags therefore keeps the value closest to the leaf for each key.", "quantifier": "every context chain and callback", "why_tests_cant": "chains are unbounded", "anchors": ["ctx/tags.go:RangeTag", "ctx/tags.go:tagC.Value", "ctx/log/log.go:ExtractTags"]}
{"id": "C22", "title": "Detach keeps values and drops cancellation", "statement": "ctx.Detach(c): Value(k) is that of c for every key; Done is nil, Err is nil and no Deadline for every state of c, and contexts derived from it are cancelled only by their own cancel or deadline. (ctx.Cause of a detached context still reports the parent's cause: refuted separately.)", "quantifier": "every context tree and cancellation history", "why_tests_cant": "needs all trees and orders of cancellation", "anchors": ["ctx/detach.go:Detach", "ctx/detach.go:detachedC"]}
{"id": "C23", "title": "Sibling spans get distinct tracking ids", "statement": "Two Span calls on the same tracked context yield different tracking ids. (The code violates this: the counter is incremented on a copy, so both siblings get suffix .1.) Nested spans do get distinct, prefix-extending ids.", "quantifier": "every tracked context and number of spans", "why_tests_cant": "existing tests look at one span only", "anchors": ["ctx/span.go:Span", "ctx/span.go:trackingCtx.Value"]}
{"id": "C24", "title": "Attaching a logger to a child context does not affect its parent", "statement": "log.WithLogFunc / WithHelper on a derived context leaves the logger used by the parent and sibling contexts unchanged. (The code violates this when the parent already has a configuration: the shared configuration is mutated.) It holds when the parent chain has no configuration yet, and the child always gets what was set and keeps the rest of its configuration.", "quantifier": "every context tree and order of configuration calls", "why_tests_cant": "requires looking at the parent after configuring the child", "anchors": ["ctx/log/log.go:WithLogFunc", "ctx/log/log.go:WithHelper", "ctx/log/log.go:extractConfig"]}
{"id": "C25", "title": "Redacted strings never reach the log message", "statement": "log.FormatMsg replaces every Loggable argument by its LogAs value before formatting, so a top-level RedactedString argument contributes the same message whatever its content; LogAs tag rewrites apply in argument order, last writer wins.", "quantifier": "every argument list and any two contents of the redacted arguments", "why_tests_cant": "non-interference is a property of pairs of runs", "anchors": ["ctx/log/log.go:FormatMsg", "ctx/log/redacted.go:RedactedString.LogAs"]}
{"id": "C26", "title": "Label rendering is injective and rejects arity mismatch", "statement": "For fixed label names, two different value tuples of the right length never share a time series key; a wrong number of values panics.", "quantifier": "every label list and all value tuples (including quotes, backslashes, commas)", "why_tests_cant": "collisions need adversarial values", "anchors": ["utils/prom/labels.go:stringify"]}
{"id": "C27", "title": "Histogram buckets are cumulative counts", "statement": "After any observations, the printed count for bucket i is the number of observations <= its bound, +Inf and _count are the number of observations, _sum is their sum, and with ascending bounds the bucket counts are non-decreasing and bounded by the count; observations under one label tuple never affect another.", "quantifier": "every observation sequence, bounds and label tuples", "why_tests_cant": "unbounded sequences", "anchors": ["utils/prom/histogram.go:Histogram.Observe", "utils/prom/histogram.go:histogramTS.print"]}
{"id": "C28", "title": "Scraping a histogram never panics", "statement": "Printing a Histogram concurrently with observations never panics. (The code violates this: a series printed between its creation and its first observation indexes missing buckets.) It holds whenever every created series has completed an observation.", "quantifier": "every interleaving of Observe and Print", "why_tests_cant": "one-instruction race window", "anchors": ["utils/prom/histogram.go:Histogram.Observe", "utils/prom/histogram.go:histogramTS.print"]}
{"id": "C29", "title": "Counters and gauges report the exact sum per label tuple", "statement": "Counter reports per label tuple the sum of the observed values; GaugeCounter the wrapping int64 sum of Inc minus Dec; SetFunc replaces and SetFunc(nil) removes; Gauge.Counter panics iff the slot holds a function.", "quantifier": "every operation sequence", "why_tests_cant": "unbounded sequences", "anchors": ["utils/prom/counter.go:Counter", "utils/prom/gauge.go:Gauge"]}
{"id": "C30", "title": "Metric names are registered at most once", "statement": "prom.Register panics iff the name is already registered, otherwise adds it and never replaces another; Range visits every registered metric once and stops at the first error.", "quantifier": "every sequence of registrations", "why_tests_cant": "unbounded", "anchors": ["utils/prom/metric.go:Register", "utils/prom/metric.go:Range"]}
{"id": "C31", "title": "Shutdown begins once and is never undone", "statement": "However many times and in whatever interleaving Begin is called, the Started channel is closed exactly once (no double close panic), stays closed, and Started5Sec closes only after Started and at least five seconds later.", "quantifier": "every interleaving of Begin callers and clock ticks", "why_tests_cant": "timing and races", "anchors": ["shutdown/shutdown.go:shutter.begin"]}
{"id": "C32", "title": "Done closes only when no hold is outstanding", "statement": "A channel returned by Done closes only at a moment when every Hold taken so far was released; while some hold is outstanding it stays open if it was open; releases beyond holds panic; once no hold is outstanding no Done goroutine stays blocked and each can run on to close its channel.", "quantifier": "every interleaving of Hold, Release and Done", "why_tests_cant": "interleavings", "anchors": ["shutdown/shutdown.go:shutter.done", "shutdown/shutdown.go:shutter.hold"]}
{"id": "C33", "title": "Signals escalate: graceful, cancel, exit", "statement": "While holds are outstanding WaitForSignal reacts to the first signal by beginning shutdown, to the second by cancelling the root context, and to the third by exiting the process; it returns normally only when no hold is outstanding.", "quantifier": "every sequence of signals, holds and releases", "why_tests_cant": "process exit and signal timing", "anchors": ["shutdown/shutdown.go:shutter.waitForSignal"]}
{"id": "C34", "title": "Key-value store refines a map of records", "statement": "Get after Upsert(k, v) returns v until the next Upsert or Delete of k; Get of an absent key returns nil without error; operations on one key never affect another.", "quantifier": "every operation sequence", "why_tests_cant": "unbounded histories", "anchors": ["storage/keyvalue.go:memKeyValue"]}
{"id": "C35", "title": "Range visits exactly the matching records once, from a snapshot", "statement": "Range calls f exactly once for each record matching all filters at the time of the call in some order, even if f mutates the store; EOD stops it with nil, another error stops it and is returned; with no filters every record matches.", "quantifier": "every store, filter list, callback (including re-entrant mutation) and iteration order", "why_tests_cant": "map iteration order and mutation during iteration", "anchors": ["storage/keyvalue.go:memKeyValue.Range", "storage/keyvalue.go:check"]}
{"id": "C36", "title": "Filters compare field values; missing fields count as nil; unsupported operators are errors when reached", "statement": "Equal matches iff the field value and the literal render the same, which for scalar nodes means they are equal; NotEqual is its negation; a missing field behaves as Nil; an unsupported operator makes Range fail if and only if some record passes the filters before it.", "quantifier": "every record set, filter list, scalar literal", "why_tests_cant": "string rendering collisions need adversarial values", "anchors": ["storage/keyvalue.go:Filter.Check", "storage/keyvalue.go:check"]}
{"id": "C37", "title": "Configuration loading sets exactly the tagged fields", "statement": "config.From on success leaves untagged fields untouched and sets every tagged field to the parse of the looked-up value, or of its default when the lookup is empty; a tagged field with neither is an error; an unknown tag option is an error.", "quantifier": "every struct shape (supported field kinds), tags and lookup function", "why_tests_cant": "combinatorial shapes", "anchors": ["config/config.go:From"]}
{"id": "C38", "title": "Configuration text parses as documented", "statement": "Booleans accept exactly true/1/yes/y and empty/false/0/no/n in any letter case; ints are exactly decimal Atoi; lists split at commas and append; maps split at commas and the first equals sign, last duplicate wins; a type's own text method decides for it (a standard one only for non-empty text); anything else is an error.", "quantifier": "every text value and nested list/map element type", "why_tests_cant": "unbounded text", "anchors": ["config/config.go:unmarshalText"]}
{"id": "C39", "title": "JSON encoding round-trips", "statement": "Decoding the JSON encoding of any node nested at most 10000 deep (the limit of Go's JSON scanner) gives the same node up to the representation changes JSON imposes (numbers become their digits, pairs become maps, times and durations become their text); in particular Decode(Encode n) = n for nodes built only of Nil, Bool, String, Digits, List and Map.", "quantifier": "every node of any depth and every string of valid Unicode", "why_tests_cant": "escaping and nesting are unbounded", "anchors": ["enc/json.go:JSON.Encode", "enc/json.go:JSON.Decode", "enc/enc.go:fromNative", "enc/pairs.go:Pairs.MarshalJSON"]}
{"id": "C40", "title": "Typed values survive Marshal then Unmarshal", "statement": "For every Go type built from bool, integers, float64, strings, pointers, slices, arrays, string- and integer-keyed maps, interfaces holding nodes, and structs with distinct exported untagged or named fields, unmarshalling the marshalled value into a fresh variable gives the value back, under the stated exclusions (pointer-to-nil collapse, uint64 above MaxInt64).", "quantifier": "every such type and value of any depth", "why_tests_cant": "type and value space is unbounded", "anchors": ["enc/handler.go:Handler.Marshal", "enc/handler.go:Handler.unmarshal"]}
{"id": "C41", "title": "Typed values survive the JSON wire", "statement": "enc.UnmarshalJSON(enc.MarshalJSON(v)) gives v back for the same class of types.", "quantifier": "every such type and value", "why_tests_cant": "unbounded", "anchors": ["enc/json.go:MarshalJSON", "enc/json.go:UnmarshalJSON"]}
{"id": "C42", "title": "Unmarshal writes only what the input mentions", "statement": "Unmarshalling an object into a struct changes only exported fields whose JSON name occurs in the input; other fields keep their old value; unknown keys are ignored, or reported to UnhandledFields when set, each exactly once, until one is refused, which is an error.", "quantifier": "every struct type, prior value and input object", "why_tests_cant": "prior values and unknown keys are unbounded", "anchors": ["enc/map.go:Map.unmarshalInto"]}
{"id": "C43", "title": "Fields tagged json:\"-\" are neither written nor read", "statement": "A field tagged json:\"-\" never appears in Marshal output and Unmarshal never changes it. (The second half is violated: the input key \"\" sets it.)", "quantifier": "every struct with skipped fields and every input", "why_tests_cant": "needs the empty key", "anchors": ["enc/util.go:parseTag", "enc/map.go:Map.unmarshalInto", "enc/handler.go:Handler.Marshal"]}
{"id": "C44", "title": "omitempty drops exactly empty strings, zero numbers and nils", "statement": "With omitempty a field is absent iff its node is Nil, the empty string, zero or empty digits; without it every exported unskipped field is present, in declaration order.", "quantifier": "every struct value", "why_tests_cant": "unbounded", "anchors": ["enc/handler.go:Handler.Marshal"]}
{"id": "C45", "title": "Integers are converted without silent change", "statement": "Marshalling an integer and unmarshalling it into the same kind preserves it. (Violated outside int64 for uint64, and unmarshalling a wide or negative number into a narrower kind truncates silently instead of failing.) The exact wrap-around behaviour is characterised.", "quantifier": "every integer value and kind", "why_tests_cant": "2^64 values", "anchors": ["enc/numeric.go:unmarshalNumericInto", "enc/handler.go:Handler.Marshal"]}
{"id": "C46", "title": "Decimal digits convert to integers by dropping the fraction", "statement": "Digits text without exponent converts to the integer part, toward zero, failing when out of range. (With an exponent after a decimal point the result is silently wrong.)", "quantifier": "every JSON number text", "why_tests_cant": "unbounded text", "anchors": ["enc/numeric.go:Digits.Int64", "enc/numeric.go:trimDecimal"]}
{"id": "C47", "title": "Pipe is a pair of bounded FIFO queues with idempotent close", "statement": "enc.NewPipe(n): nodes are read in the order written in each direction, none lost or duplicated; a write succeeds only if there is room (or a reader waiting); after Close writes fail with ErrClosedPipe, reads drain what was written and then return EOF; closing again is harmless.", "quantifier": "every interleaving of writers, readers and closers, every n >= 0", "why_tests_cant": "interleavings", "anchors": ["enc/util.go:Pipe"]}
{"id": "C48", "title": "Pairs lookups agree except for duplicate keys", "statement": "For Pairs with distinct JSON names, AsMap, Find, JSON encoding and unmarshalling agree on every key; with duplicates AsMap takes the last and Find the first.", "quantifier": "every pair list", "why_tests_cant": "unbounded", "anchors": ["enc/pairs.go:Pairs"]}
{"id": "C49", "title": "Servers accept only declared inputs", "statement": "Server.Recv returns a fresh object in which fields tagged in are those of the request (zero when absent), fields tagged neither in nor out nor url keep the registered template's value, and output-only fields are zero regardless of the request.", "quantifier": "every handler type, template and request", "why_tests_cant": "mass-assignment style attacks need adversarial keys", "anchors": ["api/handler.go:Server.Recv", "api/handler.go:NewHandler"]}
{"id": "C50", "title": "Required inputs and required authentication are enforced", "statement": "Recv succeeds only if every required in-field is non-zero and, when auth is required, the request carries a non-nil UID; the auth field then equals the decoded UID whatever the body says.", "quantifier": "every handler type and request", "why_tests_cant": "adversarial requests", "anchors": ["api/handler.go:Server.Recv", "api/json.go:JSON.Auth"]}
{"id": "C51", "title": "Responses and requests carry only declared fields", "statement": "Server.Send writes exactly the out fields and Client.Send exactly the in fields, under their API names; Client.Recv changes only out fields.", "quantifier": "every handler type and object", "why_tests_cant": "leaks need many types", "anchors": ["api/handler.go:Server.Send", "api/handler.go:Client.Send", "api/handler.go:Client.Recv"]}
{"id": "C52", "title": "Client and server agree on a call", "statement": "Client.Send, Server.Recv, Do, Server.Send, Client.Recv through JSON leaves the client object with the out fields as computed by the server from the client's in fields.", "quantifier": "every handler type whose fields round-trip, every object", "why_tests_cant": "composition over all types", "anchors": ["api/handler.go:Client", "api/handler.go:Server", "api/test.go:Test"]}
{"id": "C53", "title": "Handler tags are validated", "statement": "NewHandler fails for non-pointer or non-struct templates, for unknown api tag words and for a second auth field, and succeeds otherwise; field names come from enc, then json, then the field name.", "quantifier": "every struct shape", "why_tests_cant": "combinatorial", "anchors": ["api/handler.go:NewHandler", "api/tag.go:parseTags", "api/tag.go:tagName"]}
{"id": "C54", "title": "Every schema reference resolves", "statement": "After any successful SchemaFromType calls, every $ref in the returned schema and in the component table names an entry of the component table, each named struct is defined once, and the walk terminates for recursive struct types.", "quantifier": "every finite type graph, including recursive ones", "why_tests_cant": "unbounded graphs", "anchors": ["api/openapi/schema.go:Service.schemaFromType"]}
{"id": "C55", "title": "Unsupported types are reported as errors", "statement": "SchemaFromType returns an error for types containing channels, functions or complex numbers. (Violated: when the unsupported type is nested, the call panics on a nil schema.)", "quantifier": "every type graph", "why_tests_cant": "nested unsupported types are untested", "anchors": ["api/openapi/schema.go:Service.schemaFromType"]}
{"id": "C56", "title": "Error responses follow the error code and internal errors never leak", "statement": "A request handler error is answered with its HTTP code (500 if none); the body carries the error text iff the code is below 500; for 5xx the whole response depends only on the code and the tracking id, never on the error text. (Violated for codes that are not final status codes: an informational code is answered 200, one outside 100-999 not at all.)", "quantifier": "every error tree and handler", "why_tests_cant": "non-interference over all errors", "anchors": ["http/server.go:Server.handleRequest"]}
{"id": "C57", "title": "Success responses use 204 for empty and gzip only when large and accepted", "statement": "Empty output gives 204 with no body; otherwise 200 with the JSON content type and the exact body, gzip-encoded iff longer than 16384 bytes and the Accept header contains gzip.", "quantifier": "every output and header", "why_tests_cant": "boundary sizes", "anchors": ["http/server.go:Server.handleRequest"]}
{"id": "C58", "title": "The first status code wins and is the one measured", "statement": "Through the response wrapper, whatever sequence of WriteHeader and Write calls a handler makes, at most one WriteHeader reaches the underlying writer, it is the first one, and the recorded code is the code the client sees. (Violated: after an informational code the final one is dropped, and a handler that writes nothing is recorded as 0.)", "quantifier": "every call sequence", "why_tests_cant": "unbounded", "anchors": ["http/mux.go:response.WriteHeader", "http/mux.go:response.Write"]}
{"id": "C59", "title": "Client treats only 200 and 204 as success", "statement": "Client.Do returns an error carrying the status code for every other status; Client.API leaves the object unchanged on 204 and on errors. (Violated: if a later output can not be read the earlier ones are changed.)", "quantifier": "every status code", "why_tests_cant": "all codes", "anchors": ["http/client.go:Client.Do", "http/client.go:Client.API"]}
{"id": "C60", "title": "WebSocket frames are handled one at a time in arrival order and the connection is always closed", "statement": "Conn.Loop hands each received node to onData in order, never two at once, stops at the first onData error after sending one disconnect frame, and closes the connection on every exit path.", "quantifier": "every schedule of reader, loop and cancellation", "why_tests_cant": "interleavings", "anchors": ["http/ws/conn.go:Conn.Loop"]}
{"id": "C61", "title": "RPC frames reach only the object opened on their channel", "statement": "A data frame is delivered only to the instance bound to its channel by the latest open and only to the method named by its path; open binds a fresh instance initialised from the registered template; frames for unknown channels, unknown methods or unknown objects are errors; method errors are reported on the same channel and do not end the connection; a panic in a method does.", "quantifier": "every sequence of frames, registered objects and channels", "why_tests_cant": "cross-talk needs long interleavings", "anchors": ["http/ws/rpc.go:RpcConn.onFrame", "http/ws/channel.go:Channel.onData", "http/ws/handler.go:RpcHandler.Register", "http/ws/reflect.go:builder.build"]}
{"id": "C62", "title": "A failed constructor refuses the channel", "statement": "If Init fails when opening a channel, the client is told and the channel is not usable. (Violated: the error is dropped, the open reports success and the channel stays registered without methods.)", "quantifier": "every object whose Init fails", "why_tests_cant": "failing constructors are untested", "anchors": ["http/ws/handler.go:RpcHandler.Register", "http/ws/reflect.go:builder.build"]}
{"id": "C63", "title": "Frames survive the wire", "statement": "A Frame marshalled, encoded to JSON, decoded and unmarshalled is the same frame (with data in decoded form). (Violated: data that is null or the empty string is dropped.)", "quantifier": "every frame", "why_tests_cant": "omitempty and nested data", "anchors": ["http/ws/channel.go:Frame", "http/ws/conn.go:Conn.Send"]}
{"id": "C64", "title": "Buffered test pipe delivers bytes in order", "statement": "For test.BufferedRWC, the bytes returned by successive Reads with any buffer sizes are exactly the appended bytes in order, reads never return 0 bytes with nil error for non-empty chunks and buffers, and EOF comes only after all appended bytes are read and the read side is closed.", "quantifier": "every sequence of Append, Read and close", "why_tests_cant": "buffer boundary combinations", "anchors": ["test/io.go:BufferedRWC"]}
{"id": "C65", "title": "Formatting the same log arguments twice gives the same result", "statement": "Calling log.FormatMsg twice with the same argument slice and the same initial tags yields the same message and the same tags (e.g. a LogFunc that forwards its args to two loggers). (Violated for tags: FormatMsg replaces Loggable arguments inside the caller's slice, so LogAs and its tag rewrites only happen the first time. The message is the same.)", "quantifier": "every argument list", "why_tests_cant": "needs a fan-out logger and a Loggable that rewrites tags", "anchors": ["ctx/log/log.go:FormatMsg"]}
{"id": "C66", "title": "Rendered label values are readable in the Prometheus text format", "statement": "The text prom writes for a label value is read back as that value by the exposition format, whose only escapes are \\\\, \\\" and \\n. (Violated: fmt's %q also produces \\t, \\r, \\x.. and \\u.... for non-printable characters, which the format does not know.) It holds for values made of printable characters and newlines.", "quantifier": "every label value", "why_tests_cant": "needs values with control characters and a conforming parser", "anchors": ["utils/prom/labels.go:stringify"]}
{"id": "C67", "title": "Taking a hold never crashes the process", "statement": "Hold can be called at any time, whatever Done channels are pending. (Violated: Done waits on the same sync.WaitGroup that Hold adds to; a Hold right after the last Release, while a Done goroutine was woken but has not returned from Wait, makes Wait panic with \"WaitGroup is reused before previous Wait has returned\", in a goroutine nobody recovers.) It holds as long as no hold is taken while a woken waiter is pending.", "quantifier": "every interleaving of Hold, Release, Done and the waiting goroutines", "why_tests_cant": "needs an exact interleaving between Release and the woken waiter", "anchors": ["shutdown/shutdown.go:shutter.hold", "shutdown/shutdown.go:shutter.done"]}
{"id": "C68", "title": "Equality filters are reliable for compound values", "statement": "A storage Equal filter whose literal is a list or map matches exactly the records holding an equal value. (Violated both ways: maps are rendered in random iteration order, so a record may fail to match its own value; list and map elements are rendered with String(), so e.g. the integer 1 and the digits 1 are confused.) A value matches itself when both renderings use the same order.", "quantifier": "every compound node and iteration order", "why_tests_cant": "map iteration order is random; a test passes by luck", "anchors": ["storage/keyvalue.go:Filter.Check", "enc/map.go:Map.GoString", "enc/list.go:List.GoString"]}
{"id": "C69", "title": "Stored records are isolated from later edits", "statement": "A record changes in the store only by Upsert or Delete. (Violated: the store keeps the caller's map, so editing the map after Upsert, or the map returned by Get, edits the store without its lock.) Edits of maps that are not stored do not show.", "quantifier": "every store, record and edit", "why_tests_cant": "aliasing is invisible unless the caller reuses the map", "anchors": ["storage/keyvalue.go:memKeyValue.Upsert", "storage/keyvalue.go:memKeyValue.Get"]}
{"id": "C70", "title": "Configuration loading reports problems as errors, never by panicking", "statement": "config.From returns an error for every value or field type it cannot handle. (Violated: a field of a named bool or int type, a map with a named key type, and an unexported tagged field panic inside reflect.) It never panics when tagged fields are exported and built from plain bool, plain int, strings, slices and string-keyed maps.", "quantifier": "every struct type, tags and lookup", "why_tests_cant": "needs unusual field types", "anchors": ["config/config.go:unmarshalText", "config/config.go:From"]}
{"id": "C71", "title": "Everything that can be encoded can be decoded", "statement": "Whenever JSON Encode of a node succeeds, Decode accepts the text, and Encode does not panic on a node whose numbers are valid. The code violates it: lists nested more than 10000 deep are encoded to a text Decode rejects, and objects nested that deep make Encode panic.", "quantifier": "every node, of any depth", "why_tests_cant": "needs inputs nested thousands deep", "anchors": ["enc/json.go:JSON.Encode", "enc/json.go:JSON.Decode"]}
{"id": "C72", "title": "Decode rejects trailing data", "statement": "A text that continues after its first JSON value is rejected. The code violates it: whatever follows the first value and a space is ignored, so two different texts are taken for the same message.", "quantifier": "every node and every trailing text", "why_tests_cant": "unbounded inputs", "anchors": ["enc/json.go:JSON.Decode"]}
{"id": "C73", "title": "Decoded documents re-encode", "statement": "Whatever JSON.Decode returns consists of nil, booleans, strings, valid numbers, lists and maps, nested at most 10000 deep; it can be encoded without panic, and decoding that text gives the same node.", "quantifier": "every input text", "why_tests_cant": "Whether any accepted text leads to an Encode panic is a statement about all texts.", "anchors": ["enc/json.go:JSON.Decode", "enc/json.go:JSON.Encode", "enc/enc.go:fromNative"]}
{"id": "C74", "title": "Marshal never panics", "statement": "Marshal returns a node or an error for every value, it never panics. (Violated: a nil *time.Time, *enc.Time or *enc.Duration panics, a channel panics, a field tag with an unknown option panics; it holds for all types without these and without nodes.)", "quantifier": "every type and value", "why_tests_cant": "The panics need particular combinations of type and nil pointer anywhere inside a value.", "anchors": ["enc/handler.go:Handler.Marshal"]}
{"id": "C75", "title": "Unmarshalling decoded JSON never panics", "statement": "UnmarshalJSON of any text into any variable returns normally, with or without an error. (Violated: any JSON value but null into a field of a non-empty interface type panics; it holds for all types without such fields and with valid tags.)", "quantifier": "every text, type and prior value", "why_tests_cant": "Remote input decides which branch is taken; no test enumerates all types and inputs.", "anchors": ["enc/handler.go:Handler.unmarshal", "enc/json.go:UnmarshalJSON"]}
{"id": "C76", "title": "Results do not depend on map iteration order", "statement": "Marshal and Unmarshal give the same result whatever the order in which Go visits maps. (Violated for Unmarshal into maps with integer keys when two keys denote the same number; it holds for Marshal, and for Unmarshal into types whose maps have string keys.)", "quantifier": "every value, input and pair of iteration orders", "why_tests_cant": "Go randomises the order, so a test sees only some orders.", "anchors": ["enc/map.go:Map.unmarshalInto", "enc/handler.go:Handler.Marshal"]}
{"id": "C77", "title": "Values in an any survive the JSON wire", "statement": "A value stored in a field of type any comes back equal after MarshalJSON and UnmarshalJSON. (Violated: integers come back as floats, times and durations as strings; it holds for nil, booleans, strings, finite floats, and lists and maps of these.)", "quantifier": "every native value of any depth", "why_tests_cant": "Dynamic types inside any are invisible to static checks and depend on the whole value.", "anchors": ["enc/handler.go:Handler.unmarshal", "enc/numeric.go:Digits.native"]}
{"id": "C78", "title": "Serving a registered handler never panics", "statement": "If NewHandler accepts a template then Server.Recv never panics, whatever the template's fields and the request.", "quantifier": "every handler type, template and request", "why_tests_cant": "templates with private state are typical in production, and absent from tests", "anchors": ["api/handler.go:Server.Recv", "api/handler.go:NewHandler", "api/json.go:JSON.Unmarshal"]}
{"id": "C79", "title": "An error of a handler is an error for the client, with the same code", "statement": "Whatever error a request handler returns, Client.Do on the response fails with the code ErrorCode gives the server's error. (Violated: an informational code is answered 200, and 200 and 204 as codes of errors are successes for the client.)", "quantifier": "every error tree, every handler", "why_tests_cant": "unusual codes; the two ends are tested apart", "anchors": ["http/server.go:Server.handleRequest", "http/client.go:Client.Do", "http/error.go:ErrorCode"]}
{"id": "C80", "title": "Call handlers, /live and /ready answer as documented", "statement": "CallHandler answers errors by their code without a body, empty results by 204, others by 200 with exactly the bytes; /live is 204 and /ready is the code set by SetReady.", "quantifier": "every result, every code", "why_tests_cant": "all codes and sizes", "anchors": ["http/call.go:CallHandler.Register", "http/server.go:NewServer"]}
{"id": "C81", "title": "Requests that can not be read are refused as the client's fault", "statement": "A registered API answers a body that is not a JSON object, or does not fit the inputs, with a 4xx code. (Violated: a body that is not a JSON object is answered 500; one that does not fit is answered 400.)", "quantifier": "every body, every handler type", "why_tests_cant": "malformed bodies are untested", "anchors": ["http/api.go:Server.RegisterAPI", "api/json.go:JSON.ReadFrom"]}
{"id": "C82", "title": "APIs that require an identity can be called over http", "statement": "An API with a required auth field that is registered can be called by some request. (Violated: the identity is never set, so that every request is refused.)", "quantifier": "every handler type with a required auth field, every request", "why_tests_cant": "a statement about all requests", "anchors": ["http/api.go:Server.RegisterAPI", "api/json.go:JSON.Auth"]}
{"id": "C83", "title": "Calling an API over http is calling it", "statement": "Client.API against a server where the object's type is registered runs Do on an object with the client's inputs and leaves Do's outputs in the client's object and everything else untouched; if Do fails with an error of a proper code, the client fails with this code and its object is unchanged. (Violated: an error with code 204 is a success for the client, and an object used before keeps outputs the response says nothing about.)", "quantifier": "every handler type, template, object and Do, for inputs and outputs that survive JSON and fresh outputs", "why_tests_cant": "composition of tags, enc, JSON, server and client for all types", "anchors": ["http/client.go:Client.API", "http/api.go:Server.RegisterAPI"]}
{"id": "C84", "title": "Client.API never panics", "statement": "Client.API returns, with an error if the call can not be made. (Violated: without a url tag it panics.)", "quantifier": "every handler type, object and behaviour of the network", "why_tests_cant": "all types and responses", "anchors": ["http/client.go:Client.API", "api/handler.go:Handler.URL"]}
{"id": "C85", "title": "Listen returns", "statement": "Server.Listen returns, with an error if the server can not be started. (Violated: if the program is shutting down, Shutdown may come before Serve; then Listen waits forever.)", "quantifier": "every schedule of the three goroutines and the begin of the shutdown", "why_tests_cant": "interleavings", "anchors": ["http/server.go:Server.Listen", "http/server.go:listener.Accept"]}
{"id": "C86", "title": "Different types have different definitions", "statement": "SchemaFromType keeps the definitions of two named struct types apart: each $ref leads to the description of its own type. (Violated: the key replaces '/' by '_', so that package a/b type C and package a type b_C share a definition; true for packages and names without underscores.)", "quantifier": "all package paths and type names", "why_tests_cant": "needs an injectivity argument over all names", "anchors": ["api/openapi/schema.go:Service.schemaFromType"]}
{"id": "C87", "title": "Schemas describe what is written", "statement": "The properties of a struct's definition are exactly the JSON keys enc writes for its values. (Violated: unexported fields and those tagged json:\"-\" are described but never written; every key that is written is described.)", "quantifier": "all struct types and all their values", "why_tests_cant": "relates two packages over all types", "anchors": ["api/openapi/schema.go:Service.schemaFromType", "enc/handler.go:Handler.Marshal"]}
{"id": "C88", "title": "A handler does what it documents", "statement": "UpdateOpenAPI documents one request property per input name, as required exactly the required inputs, one response property per output name, and a token exactly if there is an auth field; the server accepts only requests with the documented required properties and token, ignores undocumented ones, and answers with exactly the documented properties; every reference in the document resolves.", "quantifier": "all handler types, templates, requests and objects", "why_tests_cant": "documentation and behaviour are computed separately", "anchors": ["api/handler.go:Handler.UpdateOpenAPI", "api/handler.go:Server.Recv", "api/handler.go:Server.Send"]}
{"id": "C89", "title": "A waiting reader of the buffered pipe is woken", "statement": "A Read of test.BufferedRWC that waits is woken when there is something to read or when the buffer is closed. (Violated: Close does not wake it, and with two readers the rest of a partly read chunk wakes nobody; true for one reader with SetReadClosed.)", "quantifier": "every interleaving of readers, Append, SetReadClosed and Close", "why_tests_cant": "lost wake-ups depend on interleavings", "anchors": ["test/io.go:BufferedRWC.Read", "test/io.go:BufferedRWC.Close"]}
{"id": "C90", "title": "The reading goroutine of a websocket connection ends with its loop", "statement": "Once Conn.Loop has returned, the goroutine that reads from the connection ends as well. (Violated: if the peer has sent another frame after the one whose handler failed, the goroutine is stuck handing it over, unless the context is cancelled later.)", "quantifier": "every schedule of reader, loop and cancellation", "why_tests_cant": "a leaked goroutine fails no assertion", "anchors": ["http/ws/conn.go:Conn.Loop"]}
{"id": "C91", "title": "Closing one channel leaves the others alone", "statement": "A close frame for a channel removes that channel; the other channels of the connection go on. (Violated: it closes the whole connection and leaves the channel registered.)", "quantifier": "every registry, connection state and sequence of frames", "why_tests_cant": "tests close their only channel", "anchors": ["http/ws/rpc.go:RpcConn.onFrame", "http/ws/README.md"]}
{"id": "C92", "title": "The end of a websocket connection is announced", "statement": "When handling a frame ends the connection, the client is sent a disconnect frame first. (Violated: a panic while a channel is opened is not recovered, and there is no disconnect frame; panics in methods are.)", "quantifier": "every registry, connection state and frame", "why_tests_cant": "needs a panicking constructor", "anchors": ["http/ws/rpc.go:RpcConn.onFrame", "http/ws/channel.go:Channel.onData", "http/ws/conn.go:Conn.Loop"]}
{"id": "C93", "title": "A call of the websocket test client returns the result of that call", "statement": "Successive calls on a channel opened by TestClient.Open each return the outcome of their own method. (Violated: a failing method delivers two results, and the second one may be taken for the result of the next call.)", "quantifier": "every schedule of client and server, every sequence of calls", "why_tests_cant": "depends on the schedule", "anchors": ["http/ws/test.go:TestClient.Open", "http/ws/reflect.go:builder.build", "http/ws/channel.go:Channel.onData"]}
{"id": "C94", "title": "A context value is the one attached last, and tags are values under plain string keys", "statement": "Value of a user key is what the last WithValue, WithTag or WithTracking call attached under it, through any other wrapper; tags live in the same key space as plain string keys, so a tag and a value under the same string shadow each other, while keys of their own type are never affected by tags.", "quantifier": "every sequence of derivations and every key", "why_tests_cant": "chains of wrappers are unbounded, and the collision needs two unrelated packages to pick the same string", "anchors": ["ctx/tags.go:tagC.Value", "ctx/helper.go:WithValue", "ctx/span.go:WithTracking"]}
{"id": "C95", "title": "A deadline is never extended", "statement": "The deadline of a context is the earliest one asked for since the last Detach, whatever was derived in between: a child never outlives the deadline of its parent.", "quantifier": "every sequence of derivations, deadlines and detaches", "why_tests_cant": "needs all orders of nested deadlines and detaches", "anchors": ["ctx/helper.go:WithDeadline", "ctx/helper.go:WithTimeout", "ctx/detach.go:detachedC.Deadline"]}
{"id": "C96", "title": "The failing assertion is identified by its source", "statement": "For every parsed source file, function name and line: if ast.Caller returns without panicking, it reports exactly the last call of that name starting on that line in source order, with one entry per argument carrying the argument's text and, for an identifier, the last assignment to it that is in scope of the walk; it returns nothing iff no such call exists; and the report is unique.", "quantifier": "all syntax trees (any nesting of blocks, assignments, calls and function literals), names and lines", "why_tests_cant": "a test covers one source layout; the walk keeps a stack of block scopes whose behaviour depends on every nesting", "anchors": ["utils/ast/call_args.go:Caller", "utils/ast/call_args.go:visitor.Visit"]}
{"id": "C97", "title": "The assignment shown for an argument is the one in force", "statement": "The assignment reported for an identifier argument is the last one executed before the call in an enclosing block. Known violations to be exhibited: `x = f(x)` reports the call's own assignment, and the variable of an `if x := …` statement leaks to calls after the statement. What holds: assignments inside a block that ended before the call are never reported, and the last plain assignment of the same block wins.", "quantifier": "all prefixes of token walks and all closed blocks between assignment and call", "why_tests_cant": "needs all nestings of scopes before the call", "anchors": ["utils/ast/call_args.go:visitor.Visit"]}
{"id": "C98", "title": "Building an assertion message does not panic", "statement": "Looking up the source of an assertion never panics. Known violations to be exhibited: an empty function literal among the arguments is an index panic, and Nil/NotNil/Empty/NotEmpty dereference nil whenever the source file is not available or no such call is found. What holds: with a readable file whose assignments are all inside blocks and without empty literals in matching calls, Caller does not panic.", "quantifier": "all files, lines and argument positions", "why_tests_cant": "tests run with sources present and ordinary arguments", "anchors": ["utils/ast/call_args.go:Caller", "utils/ast/call_args.go:visitor.Visit", "test/util.go:argument"]}
{"id": "C99", "title": "Function names and stacks", "statement": "For every function name ShortFunc is the part after the last slash; FuncName is the part after the last dot outside brackets whatever package, receiver or type arguments precede it; Stack(above, max) is exactly the run of at most max frames starting above frames up.", "quantifier": "all names, all call stacks, all offsets and limits (including zero and negative limits)", "why_tests_cant": "tests see the names one compiler produced", "anchors": ["utils/stack.go:ShortFunc", "utils/stack.go:FuncName", "utils/stack.go:Stack"]}
{"id": "C100", "title": "Trimmed source paths are mapped to files of this module only", "statement": "AbsFile leaves a path that exists, and a path that does not begin with the module name, unchanged, and maps modname/rest to moddir/rest. Known violation to be exhibited: the prefix is not cut at a separator, so a file of a module whose name merely begins with this module's name is mapped into this module.", "quantifier": "all file names, module names and directories", "why_tests_cant": "tests run in one module", "anchors": ["utils/stack.go:AbsFile"]}
{"id": "C101", "title": "The module is found from the nearest go.mod", "statement": "The module directory and name come from the nearest enclosing directory with a non-empty go.mod, and stay empty if there is none; the name is the one declared. Known violation to be exhibited: a comment containing the word module before the declaration is taken for it.", "quantifier": "all directory chains and all file contents of the stated shapes", "why_tests_cant": "tests run in one checkout", "anchors": ["utils/stack.go:mod"]}
{"id": "C102", "title": "Assertions and their opposites", "statement": "Of each pair of opposite assertions applied to the same values exactly one passes, whatever message prefix is added; the equality assertion passes exactly for equal texts, and Contains exactly when the pattern occurs in the text.", "quantifier": "all values, texts and patterns", "why_tests_cant": "an assertion library is used by tests, hardly tested by them; needs all pairs of texts", "anchors": ["test/util.go:true", "test/util.go:false", "test/equals.go:equal", "test/strings.go:contains"]}
{"id": "C103", "title": "Quoted values in messages are faithful", "statement": "Quote shows a text so that it can be read back and distinct texts differ, on one line and without control characters for tab and newline. Known violation to be exhibited: read with Go's escapes, every newline comes back as a vertical tab. What holds: quoting is injective and the output has no newline, carriage return or tab.", "quantifier": "all texts", "why_tests_cant": "needs all pairs of texts", "anchors": ["test/util.go:Quote"]}
{"id": "C104", "title": "Nil, Empty and NoError classify values correctly", "statement": "Nil passes exactly for nil values, NoError exactly for nil errors, and Empty for empty values of every kind without panicking. Known violations to be exhibited: a nil function is not nil for Nil, NoError accepts a non-nil error interface holding a nil pointer, and Empty/NotEmpty panic on numbers, booleans, arrays and functions. What holds: for the other kinds Nil is exact and whatever is nil is empty.", "quantifier": "all kinds, nil-ness and lengths of values", "why_tests_cant": "a finite table per kind times unbounded lengths, never tested exhaustively", "anchors": ["test/nil.go:isNil", "test/empty.go:empty", "test/errors.go:NoError"]}
{"id": "C105", "title": "Shift and Pop take from the two ends", "statement": "For every sequence of Shift and Pop on a slice, the elements taken from the front, then those left, then those taken from the back in reverse make up the original slice: nothing is lost, duplicated or reordered; and they fail exactly when more elements are asked for than there are.", "quantifier": "all element types, slices and operation sequences", "why_tests_cant": "needs all interleavings of the two operations", "anchors": ["test/list.go:shift", "test/list.go:pop"]}
{"id": "C106", "title": "Exposition text of a scrape", "statement": "For every metric of the package: without series nothing is printed; otherwise exactly one HELP and one TYPE line come first and then the lines of each series, in the map's iteration order; a Custom metric prints its entries sorted by key, each once, so its text does not depend on the map's iteration order. If the n-th write fails, exactly the lines before it have been delivered and the error is returned; without a failing write everything is delivered.", "quantifier": "all names, descriptions, label texts, series sets, iteration orders and positions of failing writes", "why_tests_cant": "tests print a few series to a buffer that never fails and in whatever order the map gave", "anchors": ["utils/prom/counter.go:Counter.Print", "utils/prom/gauge.go:Gauge.Print", "utils/prom/histogram.go:Histogram.Print", "utils/prom/custom.go:Custom.Print", "utils/sync/map.go:RangeErr"]}
{"id": "C107", "title": "A failing scrape is reported to the scraper", "statement": "A scrape during which a metric fails is answered with status 500, and one without failures is complete. Known violation to be exhibited: for any registry of the package's own metrics and any failing writes the status is 200, since an error comes after the first write has sent the status; the page is then cut short and the following metrics missing. What holds: a metric failing before anything was written gives 500, and without failing writes the page is the concatenation of all metrics' texts.", "quantifier": "all registries, metrics and failing writes", "why_tests_cant": "the 500 path is never exercised by a test", "anchors": ["utils/prom/http.go:Handler"]}
{"id": "C108", "title": "One sample per line", "statement": "Every line of a scrape is a line the metric meant to print. Known violation to be exhibited: a newline in the description (or name) puts a line of its author's choosing on the page. What holds: label values cannot do this whatever they contain, and with names, descriptions, kinds and formatted values free of newlines every write is exactly one line.", "quantifier": "all label values (any bytes), names and descriptions", "why_tests_cant": "tests use plain label values", "anchors": ["utils/prom/labels.go:stringify", "utils/prom/gauge.go:Gauge.Print"]}
{"id": "C109", "title": "Lists and objects are read all or nothing, element by element", "statement": "Unmarshalling a list into a slice or array, or an object into a map with string keys, succeeds iff every element can be unmarshalled into a fresh variable (and, for an array, the length matches exactly); then the variable holds exactly these values, in order and under the same keys; otherwise the variable keeps its old value. Known violations to be exhibited: a pointer is replaced, and the fields of a struct before the failing one are set, even though the call fails.", "quantifier": "all element types, lists and objects of any length, old values and iteration orders", "why_tests_cant": "tests try matching lengths and successful conversions", "anchors": ["enc/list.go:List.unmarshalInto", "enc/map.go:Map.unmarshalInto", "enc/handler.go:Handler.unmarshal"]}
{"id": "C110", "title": "A struct stored in an `any` has the keys it has in JSON", "statement": "Unmarshalling a struct's node into an any gives the same value as going through JSON text. Known violation to be exhibited: fields appear under their Go names instead of their JSON names. What holds: when every field is called what it is called in JSON (and numbers are digits, C77) both are equal, and in any case every field is found under its Go name.", "quantifier": "all nodes of any nesting", "why_tests_cant": "tests use structs without json tags, or go through JSON", "anchors": ["enc/pairs.go:Pairs.native", "enc/handler.go:Handler.unmarshal"]}
{"id": "C111", "title": "Formats in documentation", "statement": "No schema or part of one has a format that merely repeats its type; the format of a slice or map is spelled like the Go type from the formats of its parts; a reference has the format of its definition. They do not depend on the order in which types are registered. Known violation to be exhibited: a definition carries the format of the type it was first reached from, so slices of T are documented as slices of *T if a *T was seen first.", "quantifier": "all type graphs, tables of definitions and orders of calls", "why_tests_cant": "tests document one type on a fresh service", "anchors": ["api/openapi/schema.go:schemaFromType", "api/openapi/schema.go:formatFromSchema"]}
{"id": "C112", "title": "A scraper reads what was recorded", "statement": "Reading the page of a metric line by line, as the Prometheus text format describes it, yields exactly the recorded series: the metric's name, every label name with the value it was observed with, and the value; the buckets of a histogram carry the labels of their series followed by `le`, then come the bucket +Inf, the sum and the count.", "quantifier": "all metric and label names made of name characters, all label values of printable characters and newlines, all values on one line, any number of series, labels and buckets", "why_tests_cant": "tests compare a page against a literal for one or two label sets; they do not read it back and can not cover every combination of quotes, backslashes, newlines and missing labels", "anchors": ["utils/prom/labels.go", "utils/prom/counter.go", "utils/prom/gauge.go", "utils/prom/histogram.go"]}
{"id": "C113", "title": "White space in JSON is immaterial", "statement": "White space between tokens, before and after a document changes nothing about what is decoded; in particular JSON{Indent:true} writes the same document as JSON{}; the empty text is no node without error, and white space alone is an error.", "quantifier": "all nodes that can be encoded, nested at most 10000 deep, with any white space at every position between tokens", "why_tests_cant": "there are infinitely many ways to space a document, and indentation is not tested at all", "anchors": ["enc/json.go"]}
{"id": "C114", "title": "JSON decoding accepts exactly JSON", "statement": "JSON.Decode succeeds on a text with a node exactly when the text is white space, then a value of the JSON grammar nested at most 10000 deep that means this node, then anything that cannot continue it; every other non-empty text is an error.", "quantifier": "for all texts and nodes, any length and nesting within the limit", "why_tests_cant": "The grammar is infinite and the interesting texts are the malformed ones; tests try a few of them, and cannot show that no malformed text is accepted and no valid text is refused or misread.", "anchors": ["enc/json.go:74-86", "enc/enc.go:66-118"]}
{"id": "C115", "title": "EqualsJSON compares documents", "statement": "EqualsJSON passes exactly when its two arguments stand for the same JSON document, where a string holding JSON stands for that document.", "quantifier": "for all strings and all values enc.Marshal turns into nodes", "why_tests_cant": "A comparison helper is trusted by every other test; a few equal and unequal pairs do not show which different values it identifies or which equal ones it separates.", "anchors": ["test/util.go:17-36", "test/equals.go:60-84"]}
{"id": "C116", "title": "Every request is measured exactly once", "statement": "After any requests the series http_request of a method, a path and a code counts exactly the requests with that method and path that were answered with that code. (Violated: requests for a path registered with Server.Handle are counted twice, those whose handler panics not at all.)", "quantifier": "every set of routes, every series of requests, every bucket list", "why_tests_cant": "The counters are right in tests that look at one kind of handler; two layers each measure, and only requests through both are wrong, and panicking handlers are not tried.", "anchors": ["http/server.go:44", "http/mux.go:20", "http/metrics.go:26"]}
{"id": "C117", "title": "The number of series is not chosen by clients", "statement": "There are only as many http_request series as the server has routes, methods and codes. (Violated: whatever the server, n requests for n paths, or for one path with n methods, make n series, kept forever; there is a series exactly for what was asked for and answered.)", "quantifier": "every set of routes, every n, every series of requests", "why_tests_cant": "Unbounded growth only shows under hostile clients over a long time.", "anchors": ["http/server.go:58", "http/metrics.go:26", "utils/prom/histogram.go:33"]}
{"id": "C118", "title": "Registered paths keep their handler and documented paths are routed", "statement": "A registration fails iff one of its paths is empty or taken; otherwise its paths lead to its handler whatever is registered later; every path of the openapi document is routed and its entry is never replaced; an exact pattern wins over subtrees, the longest subtree wins. (Violated: RegisterAPI panics instead of returning an error when a url is taken, leaving some urls registered and undocumented, and an API that can not be described still serves.)", "quantifier": "every sequence of registrations, including failed ones, every path", "why_tests_cant": "Needs every order and mixture of registrations, with failures in the middle.", "anchors": ["http/api.go:26", "http/mux.go:20", "http/server.go:160", "http/call.go:27", "http/monitor.go:12"]}
{"id": "C119", "title": "A test of an API shows what a call over http does", "statement": "api.Test and http.TestAPI run Do on the inputs of the object and leave its outputs in the object; and the object is the one a call over JSON would leave, whatever the server's template, with the same errors. (Violated: a required identity, state that is neither input nor output, integers in any, and floats JSON can not write all pass the test and fail or differ over the wire; proved for inputs and outputs that survive JSON, no required identity and Do a function of the inputs.)", "quantifier": "every API type, object, template, Do, url parser and map iteration order", "why_tests_cant": "The tests are the thing in question: no test through these helpers can tell what they leave out.", "anchors": ["api/test.go:11", "http/test.go:10", "api/handler.go:221"]}
{"id": "C120", "title": "UnhandledFields is told where the field is", "statement": "The path handed to UnhandledFields is the type and the names, keys and indexes that lead to the unknown field, during the call and afterwards. (Violated: a path that is kept shares its array with later paths and may become that of another field; during the call it is right, however slices grow.)", "quantifier": "every tree of nested values, every growth policy of append", "why_tests_cant": "Sharing depends on the capacity append leaves over, so it shows only at some depths.", "anchors": ["enc/handler.go:25", "enc/map.go:107", "enc/enc.go:34"]}
{"id": "C121", "title": "The path in an error tells the place", "statement": "Two places in a value have the same path text only if they are the same place; Parent drops the last element. (Violated: the key of a map is not shown, and Parent drops two elements, or panics on a path of one; proved for fields, indexes and nested lists, and up to map keys.)", "quantifier": "every pair of places, of any depth", "why_tests_cant": "A test looks at one text; ambiguity is a statement about pairs of places.", "anchors": ["enc/enc.go:34", "enc/map.go:51", "enc/list.go:47"]}
{"id": "C122", "title": "A factory's object is stored", "statement": "If the Factory of a Handler makes an object for the type of a variable, Unmarshal stores it, or returns an error if it does not fit. (Violated: whatever the type and the object, Unmarshal panics; errors of the factory are returned, and types without a factory are unaffected.)", "quantifier": "every type behind any number of pointers, every factory, object and old value", "why_tests_cant": "That every type panics can not be tested; the existing tests have no factory.", "anchors": ["enc/handler.go:120"]}
{"id": "C123", "title": "Numbers as durations", "statement": "n.Duration(unit) is n times the unit, or an error; it never panics, and AsDuration/AsTime agree with MustDuration/MustTime. (Violated: products beyond int64 wrap around silently, decoded numbers beyond int64 panic, and Go leaves open whether AsTime reads its result before parsing; proved for products that fit, and for reading afterwards.)", "quantifier": "every integer and unit, every text", "why_tests_cant": "Overflow needs inputs near 2^63, and evaluation order can change with the compiler.", "anchors": ["enc/numeric.go:42", "enc/scalar.go:40", "enc/time.go:97"]}
{"id": "C124", "title": "The default logger writes every record", "statement": "A record at or above the level set last is one line with its level, message, source and tags, each tag once; others are not written; logging never panics. (Violated: a tag called level makes every log call panic, a tag called msg is renamed, and making another default logger sets the level of all back to debug; proved for other tags.)", "quantifier": "every context, tags, arguments, levels and order of the tags; every sequence of level changes and records", "why_tests_cant": "Needs a tag with exactly the name of a built-in attribute.", "anchors": ["ctx/log/log.go:94", "ctx/log/log.go:63", "ctx/log/log.go:46"]}
{"id": "C125", "title": "A sync.Map crosses the wire", "statement": "What a sync.Map marshals to, another one takes: it then acts like a plain map with the entries of the first and its own under other keys; if reading fails it is as it was; unknown fields are reported as in a plain map. (Violated: a stored nil interface makes marshalling panic, a map held by value is marshalled as an empty object, and UnhandledFields is not told of unknown fields inside; proved for entries that survive a round trip and are no nil interfaces.)", "quantifier": "every history of both maps, later operation, key and value type and iteration order", "why_tests_cant": "Needs histories of two maps together with every value type.", "anchors": ["utils/sync/map.go:26", "utils/sync/map.go:31", "enc/handler.go:175"]}
{"id": "C126", "title": "Websocket messages arrive whole", "statement": "Every message a peer sends, in one frame or more, arrives once, whole and in order, and control frames do no harm. (Violated: of a fragmented message only the first fragment is read, as if it were the message, so 12 may arrive as 1; a ping or pong ends the program; proved for messages in one frame, and for what the other side writes.)", "quantifier": "every sequence of messages, fragmentations and control frames", "why_tests_cant": "Fragmentation is chosen by the peer; browsers rarely do it and test clients never.", "anchors": ["http/ws/ws.go:72", "http/ws/ws.go:39", "http/ws/conn.go:28"]}
{"id": "C127", "title": "A graceful shutdown waits for clients, but not for ever", "statement": "The shutdown completes only when it has begun, the server takes no requests, every request is answered and no websocket is open; and it completes without the help of clients. (Violated: any number of requests may be unanswered when it completes, since Serve returns when Shutdown is called, and one may become a websocket afterwards; an idle websocket keeps it from completing until the second signal; the rest is proved.)", "quantifier": "every interleaving of requests, upgrades, hang-ups, signals and the server's goroutines", "why_tests_cant": "Needs a request in flight at the very end of the program, where tests no longer look.", "anchors": ["http/server.go:122", "http/server.go:137", "http/ws/handler.go:37", "shutdown/shutdown.go:55"]}
{"id": "C128", "title": "What is written has the documented type", "statement": "The JSON enc writes for a value fits the schema of its type: type by type, element by element and property by property, and nothing is written that is not documented. (Violated: []byte is documented as a string, but is written as an array of numbers and refused when sent as a string; nil slices, maps and pointers are written as null, and interfaces may hold what is no object; proved for values without these, nil pointers that are omitted included.)", "quantifier": "every type built from the kinds enc handles, every value of it and every order of maps", "why_tests_cant": "Two independent walks over the same types; a test compares them for the types it names.", "anchors": ["api/openapi/schema.go:46", "enc/handler.go:170", "enc/handler.go:277"]}
{"id": "C129", "title": "Documented examples are values of their types", "statement": "If the example tag of a field stands for a value of the type then the document shows an example that reads back as this value; other examples are not shown as if they were one, and no example keeps the document from being encoded. (Violated: zeros are not shown; unsigned numbers from 2^63 on are shown as strings, which are refused; numbers out of the range of the type are shown; what follows the first JSON value is dropped; null is shown as a string; NaN makes encoding the document panic; proved for the values that survive a round trip and are not empty.)", "quantifier": "every type, value and text of the tag", "why_tests_cant": "Every type has its own way to read the tag; mistakes show only in generated documents.", "anchors": ["api/openapi/schema.go:283", "api/openapi/schema.go:46", "api/openapi/schema.go:25"]}
{"id": "C130", "title": "The example application keeps what it is given", "statement": "A value set under a key is what later requests for the key are told, whatever else was requested in between; requests that are not understood are refused and set nothing. (Violated: Get can not be registered, its api tag has unknown words, and the error is ignored; without that field it would refuse every request, since it requires an identity; the lock of the store is never taken, so two requests at the same time can end the program, or lose a value unnoticed; proved for Set and requests one after another.)", "quantifier": "every sequence of requests, key, JSON value and initial store, and every interleaving of the accesses of concurrent requests", "why_tests_cant": "The example has no test of its API; races need luck.", "anchors": ["example/example.go:15", "example/example.go:44", "example/cmd/main.go:25", "api/tag.go:38", "http/api.go:26"]}
{"id": "C131", "title": "A MetricsMutex excludes, and reports the right holder", "statement": "At most one goroutine is between Lock and Unlock, Unlock never finds it unlocked, nobody waits while nobody has it, and every line logged names the place that took the lock it is about, with its own times; the lines are in the order of what they report. (Violated: the line of an Unlock is written after the lock was given back, so the log can show the lock taken twice in a row; the rest is proved.)", "quantifier": "any number of goroutines, every interleaving of their statements and passing of time", "why_tests_cant": "Reading the holder one statement later would be wrong only under contention.", "anchors": ["utils/sync/mutex.go:22", "utils/sync/mutex.go:33"]}
{"id": "C132", "title": "Tags and logged errors are JSON", "statement": "Whatever is attached as a tag is written as one JSON value, and a logged error is described in the error tag by its text, stack and the tags of its context, as they read back; the other tags of the record are unaffected. (Violated: raw messages given as tags are not checked, and one that is no JSON, or nests deeper than 10000, in the context of an error makes the log silent about every error of the record; a user's tag called error is replaced; proved for other tags and for contexts whose tags are JSON.)", "quantifier": "every tag value, context, list of arguments and errors, and texts of any length and depth", "why_tests_cant": "The description is lost only when an invalid raw tag and an error meet in one record.", "anchors": ["ctx/tags.go:14", "ctx/error.go:78", "ctx/log/log.go:177"]}
{"id": "C133", "title": "Concurrent websocket writers do not mix frames", "statement": "However calls of Write and Close from different goroutines interleave, the peer reads whole frames: one for each call, with its payload, in the order the calls took the lock. (Violated: Close and Write use different locks, so a Close during a Write puts the close frame into the middle of the message; proved for any number of concurrent writers, and for Close when no Write is under way.)", "quantifier": "any number of goroutines and calls, payloads below 2^64 bytes, every interleaving of locking, header, payload and flush", "why_tests_cant": "A race between Close and Write needs a few microseconds of luck, and damages only that connection.", "anchors": ["http/ws/ws.go:32", "http/ws/ws.go:123"]}
{"id": "C134", "title": "A websocket's life on the server", "statement": "However a connection ends, its handler takes one hold of the shutdown first and releases it once at the end, cancels its context and leaves the transport closed; nothing is handled before OnConnect accepts; messages sent before the first Close arrive, and nothing but close frames follows; the peer is told of the end with one close frame. (Violated: an accepted peer gets two close frames, since Close calls WriteClose and x/net's Close writes another; a peer refused by OnConnect gets none; the handshake refuses requests without Origin, while its comment says it accepts any; the rest is proved.)", "quantifier": "every handler, OnConnect, what they do to the connection, input, failure of writes, panic and execution of the loop", "why_tests_cant": "Every way to end crosses every deferred call; tests end connections in one way.", "anchors": ["http/ws/handler.go:27", "http/ws/handler.go:77", "http/ws/ws.go:123", "http/ws/conn.go:21"]}
{"id": "C135", "title": "Slices that are handed out are not changed by others", "statement": "The slices lists.Copy, Flatten, AddUnique and Split return hold what they should, and assigning to them, appending to them or slicing them changes no other slice, nor the other way round. (Violated: two results of AddUnique on one slice with room left overwrite each other; the chunks of Split have the rest of the input as capacity, so appending to one overwrites the next; proved for Copy and Flatten; for AddUnique the slice it is given and those without a common array are unchanged; the chunks are windows on the input.)", "quantifier": "every heap of arrays, overlapping slices, growth of append, and sequence of later uses", "why_tests_cant": "Sharing shows only if there is spare capacity, and after a later append elsewhere.", "anchors": ["utils/lists/lists.go:12", "utils/lists/lists.go:19", "utils/lists/group.go:3", "utils/lists/group.go:27"]}
{"id": "C136", "title": "Sort and SortFunc sort", "statement": "After Sort or SortFunc the slice holds the same elements, in ascending order of the comparison or score; those alike keep their order; Pairs lists every entry of a map once, and Keys and Values belong together. (Violated: scores may be floats, and with a NaN among them the others are left out of order; the order of elements alike is proved for up to twelve, where sort.Slice is an insertion sort, beyond it is not promised.)", "quantifier": "every slice, comparison that is a strict weak order, score and iteration order", "why_tests_cant": "NaN breaks the order of other elements, silently.", "anchors": ["utils/lists/sort.go:7", "utils/lists/sort.go:17", "utils/maps/maps.go:28"]}
{"id": "C137", "title": "Warnings about slow types", "statement": "Unmarshal into a json.RawMessage or a type with UnmarshalJSON warns once about each type, and may be called by several goroutines. (Violated: the warnings are kept in a map without a lock, so two first calls at the same time may end the program, and so may a first call and any later call for another type; both may warn; proved for calls that do not overlap, and for any overlap once every message was logged.)", "quantifier": "every list of calls and messages, and every interleaving of their reads and writes of the map", "why_tests_cant": "Only the first call for each type writes, so the window opens once per type and process.", "anchors": ["enc/handler.go:30", "enc/handler.go:85", "enc/handler.go:98", "enc/handler.go:162"]}
{"id": "C138", "title": "Types with MarshalJSON and UnmarshalJSON come back", "statement": "A type with its own MarshalJSON and UnmarshalJSON, and json.RawMessage, keep their value across Marshal and Unmarshal, as with encoding/json. (Violated: a nil pointer to a type with MarshalJSON on the value panics; methods on the pointer are used for reading but not for writing a value; the order of members and repeated names are lost before UnmarshalJSON sees them; an error of encoding is dropped and UnmarshalJSON is given nothing; of two values in a RawMessage the second is dropped silently, and an empty one becomes a nil node; proved for types that read every text of the same meaning alike.)", "quantifier": "every type given by its methods, every value, text and node", "why_tests_cant": "Library types with methods on values, written in member order, work.", "anchors": ["enc/handler.go:79", "enc/handler.go:95", "enc/handler.go:190"]}
{"id": "C139", "title": "Times survive their RFC 3339 text", "statement": "A time written by enc.Time or time.Time with nanoseconds is read back with the same calendar, clock, nanoseconds and zone, alone or in a list, whatever the general time parser does. (Violated: a zone with seconds is cut to minutes, so every time in such a zone comes back as another instant; years below 0 or above 9999 are written but the text is refused.)", "quantifier": "all calendar times with nanoseconds, all zone offsets under a day, all lists of them", "why_tests_cant": "the values that fail are rare zones and years; nine digits of nanoseconds times all dates can not be enumerated", "anchors": ["enc/time.go:26-56", "enc/handler.go:87-94"]}
{"id": "C140", "title": "Durations survive their text", "statement": "Every enc.Duration, the least int64 included, is read back from the text it is written as, no two durations have the same text, and no text is read as a value out of range.", "quantifier": "all int64 durations, all texts", "why_tests_cant": "2^64 durations; the boundaries between units and the minimum are easily missed", "anchors": ["enc/time.go:70-124"]}
{"id": "C141", "title": "null resets a variable to its zero value", "statement": "Unmarshalling null, or no node, into a variable of any type leaves the zero value there whatever it held before, and as the value of a field does not disturb the others. (Violated: enc.Time refuses null although time.Time, enc.Duration and *enc.Time accept it; null for a struct also clears fields tagged json:\"-\".)", "quantifier": "all types of the typed layer, all previous values, all structs and objects", "why_tests_cant": "tests use a few types and fresh variables; the exception is one type out of twenty", "anchors": ["enc/nil.go:25-28", "enc/handler.go:51-160", "enc/time.go:49-56"]}
{"id": "C142", "title": "The response of a Call is what its handler wrote", "statement": "The body sent for a CallHandler is what the handler wrote with Write since its last SetBody, and the slices the handler passed or keeps are not changed by it; the request is read for at most the configured time and length. (Violated: SetBody keeps the slice, so a later Write overwrites what lies behind it in the same array and later changes of the slice show in the response; MaxLength is never looked at, so no body is too long; proved for handlers that give slices away without room and do not touch them again, and for handlers that only use Write.)", "quantifier": "every sequence of Write, SetBody and changes to the handler's arrays, every heap and slice, every configuration", "why_tests_cant": "Buffers in tests are full slices that nobody keeps, so the aliasing never shows.", "anchors": ["http/call.go:13-79"]}
{"id": "C143", "title": "A message that is cut short is not taken for another", "statement": "If a websocket connection ends in the middle of a frame, the messages before it are delivered and nothing of the broken one. (Violated: a frame of which only the header has come is delivered as a nil node, and a number of which some digits have come as another number, since io.ReadAll takes the end of the connection for the end of the frame; proved for every message that is not a number and of which anything has come: no proper beginning of a JSON text other than a number is JSON.)", "quantifier": "every JSON text and every place where it may be cut, every sequence of messages before it", "why_tests_cant": "The cut falls between two packets of the network; most places are harmless, and tests close connections between messages.", "anchors": ["http/ws/ws.go:63-121", "http/ws/conn.go:26-50", "enc/json.go:74-86"]}
{"id": "C144", "title": "The log tells how a websocket ended", "statement": "The end of a websocket connection is logged once, as a warning only if something went wrong. (Violated: Loop can not return without an error, so every end is a warning; a peer that sends a close frame causes a second one while one that just drops the connection does not, as the wrapped io.EOF is compared by value; a cancellation while a message waits is logged as a nil error; proved: one line of each goroutine, when it ends, and none of the reader after a cancellation.)", "quantifier": "every interleaving of the reader, the loop and a cancellation", "why_tests_cant": "Logs are not checked by tests, and the result depends on how the peer went away.", "anchors": ["http/ws/conn.go:26-70", "http/ws/ws.go:89-91", "http/ws/handler.go:56-60"]}
{"id": "C145", "title": "JSON values of the wrong kind are refused", "statement": "Unmarshalling a JSON value of a kind the variable can not be set from (a list into a number, a text into a struct, ...) is an error, the variable keeps what it held and the callback for unknown fields is not asked; the same holds for texts that are no JSON, and for objects with a key that the key type of a map can not have, whatever the order of the entries. (Violated: a pointer is replaced by a pointer to a new zero value before the value is refused; an interface with methods panics.)", "quantifier": "all types, all JSON texts, all values held before, all map orders", "why_tests_cant": "Every pair of a type and a kind of JSON value is a case of its own, nested to any depth; that the variable is kept has to hold for every value it could hold.", "anchors": ["enc/handler.go:43-160", "enc/scalar.go:26-103", "enc/list.go:37-76", "enc/map.go:46-117", "enc/numeric.go:121-165", "enc/json.go:36-42"]}
{"id": "C146", "title": "A websocket session is the session of its frames", "statement": "Whatever the schedule of the two goroutines and wherever the connection breaks, what an RPC session over a websocket has done to the objects behind its channels, and what it has sent, is what its first frames do one after the other; a disconnect frame is sent exactly if the last of these failed; all frames can be handled; as long as none failed and the connection is open, each channel is as in the session in which nobody else talks; the frames sent back are read back by the peer. A frame may be written with its members in any order, with white space and with unknown members. (Violated: a ping between two messages ends the program; data that is null or an empty text does not come back.)", "quantifier": "All registered classes, all sessions of any length in text or binary messages, all ways to write their frames, all schedules, all moments of failure", "why_tests_cant": "Message framing, JSON, unmarshalling, the two goroutines and the dispatch to the objects each have their own cases; the property is about their composition, for every interleaving and every session.", "anchors": ["http/ws/conn.go:26-74", "http/ws/rpc.go:25-58", "http/ws/ws.go:39-121", "http/ws/channel.go:28-99"]}
{"id": "C147", "title": "The document served at /openapi.json describes what is registered", "statement": "After any registrations (Handle, HandleRequest, RegisterAPI; also ones that fail), GET /openapi.json writes a text, and a JSON reader of it finds: the title; exactly the paths that were registered, each as its last registration documents it; for every API, as properties of the request exactly its inputs with their schemas, as required ones exactly the required inputs, as properties of the response exactly its outputs, and a security entry exactly if it has an auth field; under components the schemas, among them every one that is referred to; and that a body is required if an input is. (Violated: requestBody.required is false for every API, also for those that refuse a request without body. Examples are C129.)", "quantifier": "all sequences of registrations, all handlers and types without example tags nested at most 4990 deep, all visiting orders of maps, all float and time formats with the laws", "why_tests_cant": "the test of the document compares one small service; the text depends on the visiting order of maps, on omitempty of every level and on which registrations came before", "anchors": ["http/server.go:75-87", "http/server.go:162-189", "http/mux.go:14-46", "http/api.go:27-74", "api/handler.go:121-182", "api/openapi/openapi.go:3-61", "api/openapi/path.go:3-50", "api/openapi/schema.go:19-35"]}
{"id": "C148", "title": "Objects registered for websockets", "statement": "A registered object's methods that take a ws.C and at most one argument, and only those, can be called by clients under their names with the first letter lowered; every channel gets a copy of the object as it was registered, a call runs the method on that copy with the data read as its argument, and what can not be registered or called is an error. (Violated: a struct, a nil pointer or a pointer to something else panics; an object with a non-zero unexported field panics whenever a channel is opened; fields of an object changed after registration are partly taken over; names starting with a non-ASCII letter can not be called; methods whose last result is neither nil nor an error and variadic methods end the connection; types whose names differ in the case of the first letter replace each other.)", "quantifier": "every object given to Register: every struct type, field values, methods, and every session of frames afterwards", "why_tests_cant": "Tests register a handful of well-formed objects; what reflection does with other shapes of methods, fields and names shows only when a client opens a channel or calls.", "anchors": ["http/ws/reflect.go:22-62", "http/ws/reflect.go:70-95", "http/ws/reflect.go:102-171", "http/ws/handler.go:114-136"]}
{"id": "C149", "title": "Observing and scraping at the same time", "statement": "Goroutines may observe and scrape counters and histograms in any interleaving: every observation takes effect exactly once between its call and its return, a scrape of a series shows the outcome of exactly the observations in effect before it (for a histogram the buckets, sum and count are of the same observations), a later scrape shows at least what an earlier one did, at the end the value is that of all observations, and nobody waits for ever. A scrape shows all series as of one moment and reads no sum that another goroutine is writing. (Violated: the series of one scrape are of different moments; Counter.Print reads the sum without the lock.)", "quantifier": "all kinds of series, all numbers and programs of goroutines, all interleavings of map access, lock, first write, second write and unlock", "why_tests_cant": "tests run few interleavings, and a lost update or torn read needs a switch between two instructions", "anchors": ["utils/prom/counter.go:23-63", "utils/prom/histogram.go:33-76", "utils/sync/map.go"]}
{"id": "C150", "title": "Calls of the websocket test client end", "statement": "A call made with the function TestClient.Open returns ends: as long as methods exist and do not panic, the callback makes no calls and nobody closes, a waiting call can always go on and gets a result before the server has done all it can. (Violated: a call of a method that does not exist or panics never returns, nor does any call after Close; Close does not end the server's loop; a callback that calls a method on a reply blocks everything for ever.)", "quantifier": "all programs of methods (with any number of replies) and callbacks, all interleavings of client, reader and loop", "why_tests_cant": "a test that hangs looks like a slow test; that nothing can ever happen again is a statement about all continuations", "anchors": ["http/ws/test.go:25-57", "http/ws/test.go:74-137", "http/ws/conn.go:26-70"]}
{"id": "C151", "title": "Nobody waits for ever for a cache", "statement": "Every call of a cache returns once the miss functions do, also if a miss function asks the cache for other keys, and a call waits only for a fetch of its own key. (Violated: LRU and Mem call the miss function with the cache locked; if it asks the cache for any key then no call of any goroutine ever returns, and a key that is stored is not served while another is being fetched. Requests whose fetches ask for each other's key wait for ever.)", "quantifier": "All schedules of any number of goroutines, all miss functions described by the keys they ask for, evictions and panics at any time.", "why_tests_cant": "A deadlock needs particular miss functions and interleavings; a test that passes says nothing about the others.", "anchors": ["utils/caches/lru.go:61-98", "utils/caches/mem.go:28-41", "utils/caches/request.go:35-71"]}
{"id": "C152", "title": "Map keys of every type", "statement": "A map is written as an object with one member per entry, whose names are read as the keys again, for keys of every type that can be written: strings and integers come back whatever the order of visits. (Violated: float keys are written but no text is read as one; unsigned keys from 2^63 on are written as negative numbers, which are refused; times are read but not written, unless they are behind a pointer, and a nil pointer to a time panics; the number 1 and the text \"1\" in a map[any] become one member; and a string or integer type is written by its method but read without it.)", "quantifier": "all key types built from strings, integers, floats, booleans, times, interfaces, pointers and defined types with methods; all keys, values and orders of visits", "why_tests_cant": "key types times boundary values times iteration orders; the repository tests map[string] and map[int] only", "anchors": ["enc/map.go:51-87", "enc/handler.go:175-222", "enc/handler.go:243-272", "enc/scalar.go:26-38"]}
{"id": "C153", "title": "Requests to one API keep to themselves", "statement": "What a handler sees and leaves in its object depends on its own request and on the template only, not on other requests handled before or at the same time. (Violated: maps, slices and pointers of the template are shared by all requests: two requests that each add one may add one together, and what one client sends can be seen by the handler of another's request. It holds if the kept fields of the template are no references, or if no handler writes to what they lead to.)", "quantifier": "all templates, handlers as arbitrary programs on their object, inputs, numbers of requests and interleavings of their steps", "why_tests_cant": "depends on interleavings and on aliasing through reflect.Value.Set; no repository test runs two requests", "anchors": ["api/handler.go:36-87", "api/handler.go:225-253", "http/api.go:27-74"]}
{"id": "C154", "title": "Changing an ordered map while ranging over it", "statement": "Whatever the callback of Range does to the map, the call does not panic, visits only entries that were there at the beginning, in their order and each at most once, visits every entry that has not been deleted with the value it has at that moment, and leaves the map the changes make of it; if the map keeps its array, exactly the entries not deleted before their turn are visited. (Violated: if an entry put by the callback needs a larger array, entries deleted after that are visited all the same, also with old values when they have been put again; and slots of deleted entries are never used again, so a map in which one key is put and deleted n times is empty and has n slots.)", "quantifier": "all maps reachable by any operations, all capacities and growth functions, callbacks as arbitrary functions of their state, the pair and the map that put and delete any number of keys", "why_tests_cant": "depends on the capacity of the array at the time of a Put inside a callback; the repository test ranges over maps that do not change", "anchors": ["utils/ordered_map.go:33-71"]}
{"id": "C155", "title": "Contexts of tests", "statement": "Whatever tests do, the context made for a test, and those derived from it without a cancel function or Detach, is not cancelled until the test finishes, is alive in the cleanup functions registered after it was made, cancelled in those registered before, and cancelled in the end; assertions on it report to that test, and on a terminal its log lines are written by that test. (Violated: WithTester accepts the tester of a benchmark or fuzz test, but then every JSON assertion panics, also one that holds; and on a terminal the log function formats arguments as they are, so redacted strings are written in clear.)", "quantifier": "all numbers of tests and contexts, all orders of making contexts, deriving, cancelling, registering cleanup functions and finishing tests; all derivations and log arguments", "why_tests_cant": "the repository's tests use these contexts but do not test them; cleanup order and terminal output are not visible to a test", "anchors": ["test/ctx.go:13-57", "test/equals.go:60-71", "test/strings.go:27-40", "ctx/log/log.go:63-91"]}
{"id": "C156", "title": "Keys that are not equal to themselves", "statement": "What a cache or an ordered map holds under a key is found, replaced and removed by that key, and a cache with a budget keeps no more than the budget allows, for every comparable key type. (Violated: a float that is not a number, or a struct or interface holding one, is not equal to itself. Mem and LRU never find such a key, call the miss function every time, and invalidating does nothing; Mem keeps every value for ever, the index of LRU an entry or more per lookup while its list stays in the budget; OrderedMap lists a new entry per Put that can be neither read nor deleted. Other keys are not affected.)", "quantifier": "all key types whose equality is symmetric and transitive, all sequences of calls, all sizes and clocks", "why_tests_cant": "Tests use keys that are equal to themselves; that the index of the LRU leaks is not visible in any answer, and that other keys are served correctly in between has to hold for every sequence.", "anchors": ["utils/caches/lru.go:45-150", "utils/caches/mem.go:22-41", "utils/ordered_map.go:24-98"]}
{"id": "C157", "title": "Configurations loaded from the same values are independent", "statement": "config.From copies the struct it is given. If the slices of its fields do not overlap, the fields of the result and the error are those of the loader with slices as plain values. A load writes at most in the spare capacity of the slices it was given, so the given values themselves, and every other slice that does not reach there, read as before, also after a failure. If the given slices have no spare capacity, then any number of configurations loaded from the same values each end as if it were the only one. (Violated: appending a value writes into the array of the given slice if it has spare capacity, so a second load, even one that fails, replaces list elements of a configuration loaded before; a configuration loaded by From itself has such slices.)", "quantifier": "All structs of all field types, values, arrays, growth policies, sources, numbers of loads, and behaviours of types with their own decoding.", "why_tests_cant": "Tests load one configuration from one zero value; sharing shows only with two loads from the same non-empty values, and depends on capacities.", "anchors": ["config/config.go:21-66", "config/config.go:110-122"]}
{"id": "C158", "title": "Contexts of the websocket test client", "statement": "What was received from the outbox of a context made by TestClient.NewContext, followed by what is still in it, is the frames of the replies in that context that returned nil, in the order they did; no more frames are in it than its size; a reply returns at most once, and at once with an error after the connection was closed; a waiting reply can return as soon as there is room, or a receiver for size 0, or its context is cancelled. (Violated: closing the connection does not end a reply that waits for room; the channel, said to be opened, is not opened at the server, so a frame sent to it ends the connection with all its channels; a channel registered while the server sends something, as by a second Open, can end the program by a race on the map of channels. A test that registers all channels before it sends anything is safe.)", "quantifier": "All numbers and sizes of contexts, interleavings of replies, receivers, cancellations and closes; all registries and frame sequences; all schedules of the test and the server.", "why_tests_cant": "NewContext has no test; the blocking and racing schedules depend on timing.", "anchors": ["http/ws/test.go:18-28", "http/ws/test.go:43-57", "http/ws/test.go:74-82", "http/ws/test.go:139-159", "http/ws/channel.go:79-85"]}
{"id": "C159", "title": "Concurrent use of the key-value store", "statement": "In every interleaving of goroutines using the in-memory store, each call takes effect in one moment between being made and returning: the results are those of the calls made one after the other in the order they release the mutex, and a call made after another one returned takes effect after it; a Range sees exactly the entries that match in that moment and calls back with them, one by one, without holding the mutex, so that callbacks may use the store; at most one goroutine is inside, and every waiting call can be served. (Violated: records are shared maps; a Range during which another goroutine edits records sees a combination that existed at no moment. Keys and references are right nevertheless.)", "quantifier": "all interleavings of any number of goroutines and calls, nested to any depth by callbacks; all filters, map iteration orders and edits", "why_tests_cant": "Interleavings, and the iteration order of the map, are chosen by the runtime; tests see a few of them.", "anchors": ["storage/keyvalue.go:19-96"]}
{"id": "C160", "title": "Errors are recognised by errors.Is", "statement": "For all errors built with the standard library, ctx and http: errors.Is(err, target) does not panic, and is true exactly if target is among the causes of err; an error is itself, and stays recognisable through any number of ctx.WrapError, ctx.NewErrorf, fmt.Errorf and http.NewErrorf. The targets the code itself asks for behave so. (Violated: an error made by http.NewErrorf can not be asked for: http.Error has == but carries a ctx.Error that has none, so errors.Is(err, err) panics; and any ctx.Error is any other, so errors made by ctx.NewErrorf can not be told apart.)", "quantifier": "all error trees, all targets, all ways of passing an error on, any number of times", "why_tests_cant": "Trees of causes are unbounded, and the panic depends on the dynamic types inside both errors.", "anchors": ["ctx/error.go:14-62", "http/error.go:11-40", "utils/errors.go:13-20"]}
{"id": "C161", "title": "A test of a websocket object shows what a websocket does", "statement": "A session with the test client (RpcHandler.NewTest) goes as the session of the same frames over a websocket: whatever can happen in one can happen in the other, with the same objects, frames sent, errors and end; and what the client of the test gets is what a peer reads. (Violated: integers in lists are integers in the test and floats over the wire; floats that are no numbers reach methods in lists, end the program in structs, and by themselves end the connection of the test, where a websocket client gets an error; the disconnect frame never reaches the client of the test. Proved for data that JSON can carry and methods that do not hear whether it was carried, which are those called with values of their argument types that survive JSON.)", "quantifier": "every set of registered objects, every session of frames of any length, every schedule of the connection's goroutines, every map iteration order", "why_tests_cant": "tests written with the test client are the very thing whose meaning is in question: they pass whether or not the same code works over a websocket", "anchors": ["http/ws/test.go:29-57", "http/ws/test.go:60-72", "http/ws/conn.go:26-74", "http/ws/rpc.go:18-34", "enc/handler.go:190-197"]}
{"id": "C162", "title": "Unmarshal writes its variable and nothing else", "statement": "With pointers, slices, maps and nodes as references into a memory, Unmarshal leaves the variable with the value it has when everything is a plain value, reports the same error and calls, and writes nothing that was there before but the variable itself: no other variable changes, though it shares arrays, maps or pointers with the old value, also when the call fails. The value of a variable of a type without enc.Node shares nothing with the node or with another value made of it, so nothing done to one of them changes the other. (Violated: an enc.Node variable or field shares the node that was read; emptying a list or a map there empties it in every struct made of it.)", "quantifier": "all types and values of the model, all nodes and memories, including nodes that share parts; all iteration orders; failing and panicking calls", "why_tests_cant": "Sharing is not visible in the result of a call, only in what later writes do to other values; a test would have to write to every part of every value.", "anchors": ["enc/handler.go:51-160", "enc/list.go:15-22", "enc/list.go:40-80", "enc/map.go:18-24", "enc/map.go:50-128", "enc/pairs.go:26-32", "enc/pairs.go:74-83"]}
{"id": "C163", "title": "What the node made by Marshal shares", "statement": "With nodes, arrays and maps in a memory, Marshal makes the node it makes of plain values, or fails alike, and writes nothing that was there before. The node of a value of a type without enc.Node is in new cells only, so nothing done to the value later changes it, and marshalling and unmarshalling makes a copy that shares nothing with the value. Maps and pairs are copied even when they are nodes. (Violated: an enc.List is returned itself, so the node made of it, and what is made of that node in a test that passes nodes on, changes when the list does.)", "quantifier": "all types and values of the model, all memories, nodes that share parts, iteration orders", "why_tests_cant": "The result of a call does not show what it shares; a test would have to write to every part of the value afterwards.", "anchors": ["enc/handler.go:175-318", "enc/json.go:74-86", "enc/enc.go:62-78"]}
{"id": "C164", "title": "Caches used by several goroutines", "statement": "Whatever goroutines call on one LRU or one Mem, and however they are interleaved between any two accesses to its fields, each call answers as if the calls were made by one goroutine in the order in which they release the mutex, so that hits, misses and evictions are those of the sequential specification; no call panics, none waits for ever while its miss function returns, and whenever the mutex is free no key is held twice and the sizes are within the budget. (Violated: LRU.String takes no lock. Called while another goroutine removes the last entry it panics, and it may show more cached than the budget allows.)", "quantifier": "all executions: any number of goroutines, calls, interleavings of field accesses, outcomes of miss functions and clock readings", "why_tests_cant": "the race needs one goroutine to be stopped between two reads of the same expression; tests call the cache from one goroutine", "anchors": ["utils/caches/lru.go:34-107 LRU.Keys, Invalidate, Get, String", "utils/caches/lru.go:109-163 lruHeap", "utils/caches/mem.go:22-41 memCache"]}
{"id": "C165", "title": "The client gives connections back", "statement": "When a call of http.Client (Get, Post, API) returns, the body of the response, if one came, was read to its end or closed, so that the connection can be used again, whatever the status and the body are. (Violated: the body of any response other than 200 and 204 is neither read nor closed, so every such answer with a body costs a connection; every error a server of this package answers is one. Exactly those; with 200 and 204 one connection serves any number of calls one after the other.)", "quantifier": "all calls, responses, breaking connections, and all sequences of calls", "why_tests_cant": "tests make a few calls and end; what runs out is the number of open connections of a process that keeps calling", "anchors": ["http/client.go:25-60 Client.Get, Post", "http/client.go:62-73 Client.Do", "http/client.go:75-126 Client.API"]}
{"id": "C166", "title": "Every configurable value can be the default", "statement": "For every field and every value that config.From accepts for it, the tag can give that value as the default, with the same result as if it had been configured; and a field with a default can still be configured to any value. (Violated: options of a tag are separated by commas, so a default with a comma makes From fail, even if a value is configured; whatever the tag, an unconfigured list gets at most one element and a map at most one entry; a string with a default can not be configured to be empty.)", "quantifier": "all tags, keys, defaults, field types and lookups", "why_tests_cant": "tests use defaults without commas; that no tag whatsoever gives a list two elements is about all tags", "anchors": ["config/config.go:27-58 From", "config/config.go:109-139 unmarshalText"]}
{"id": "C167", "title": "Types with a marshaller are documented by what they write", "statement": "SchemaFromType documents a type with MarshalJSON or MarshalNode as the JSON type of what its values are written as. (Violated: if the zero value is written as a negative number the call panics; a struct written as a list is documented as an object and a string written as an object as a string; a type whose zero value is written as null or refused, such as nullable strings, and a pointer to a type whose method is declared on the pointer, are documented by their kind although they are written by the method. Proved: the switch takes any boolean, string and non-negative number for what it is, the call panics in no other case unless writing panics, and the documentation shows the type of what the zero value is written as in exactly the cases where that is a scalar or of the type's own shape.)", "quantifier": "all marshallers, all texts they return, all kinds of types, all tables of earlier definitions", "why_tests_cant": "A test documents a few types; whether the first byte of every text a marshaller may return leads to the right schema is a statement about all texts, and null and pointer receivers only show when other values than the zero value are written", "anchors": ["api/openapi/schema.go:57-123", "enc/handler.go:175-197", "enc/json.go:28-34"]}
{"id": "C168", "title": "The metric registry used by several goroutines", "statement": "In every interleaving of goroutines calling prom.Register and prom.Range, the calls answer as calls made one after the other in the order they release the mutex: of the registrations of one name exactly the first returns and the others panic, a Range sees each name once and exactly the metrics whose registration returned before, a metric whose registration returned is seen by every later Range, and nobody waits for ever, also after a panic. (Violated: a nil metric does not take its name, so that a later registration replaces it, and Range hands it to callbacks.)", "quantifier": "all numbers of goroutines, all sequences of calls, all interleavings of the single map accesses, all iteration orders of the map", "why_tests_cant": "Interleavings can not be enumerated by tests; that the panic inside Register leaves the mutex usable and that no registration is lost are statements about all of them", "anchors": ["utils/prom/metric.go:13-45"]}
{"id": "C169", "title": "The buffered pipe keeps what it was given", "statement": "The bytes read from a test.BufferedRWC are those that were appended at the time of Append, Written holds the bytes that were written at the time of Write, and a Read with an empty buffer returns at once. (Violated: Append and Write keep the caller's slice, so that a writer that uses its buffer again, as io.Writer allows, finds everything it wrote replaced by the last, and what was appended changes until it is read; a Read with an empty buffer that has capacity waits. Proved: if nobody writes to a slice while the pipe has it, every answer and Written are those of a pipe of bytes.)", "quantifier": "all sequences of Append, Read, Write, closing and edits of the callers' arrays, all slices, overlapping ones included", "why_tests_cant": "Tests append literals and read with fresh buffers; sharing shows only when a caller goes on using its slice, and the positive statement is about all ways slices may lie in arrays", "anchors": ["test/io.go:28-37", "test/io.go:52-108"]}
{"id": "C170", "title": "Shared objects have no data races", "statement": "However many goroutines call the methods of a cache, request cache, store, registry, histogram, counter, gauge, buffered pipe, measuring mutex, server or websocket, in whatever interleaving, conflicting accesses are ordered by happens-before; so is the buffer of ReadAll. (Violated: LRU.String and Counter.Print read without the mutex, registering writes the maps of the openapi document while it is served, closing a websocket takes another mutex than sending, warnIneff and the example's store use maps without one, records and slices stay shared with callers, and ReadAll returns its buffer while it is written to when cancelled; proved without these.)", "quantifier": "every number of goroutines, every sequence of calls, every interleaving, every path through the methods", "why_tests_cant": "a race shows only in some schedules, and the race detector sees only those that happened", "anchors": ["utils/caches/lru.go:12-107", "utils/caches/mem.go:9-42", "utils/caches/request.go:35-71", "storage/keyvalue.go:18-110", "utils/prom/metric.go:13-46", "utils/prom/histogram.go:21-124", "utils/prom/counter.go:18-63", "utils/prom/gauge.go:28-93", "test/io.go:9-105", "utils/sync/mutex.go:16-39", "http/server.go:34-88", "http/ws/ws.go:32-61", "utils/io.go:13-46", "enc/handler.go:162-168", "example/example.go:10-51"]}
{"id": "C171", "title": "Shared objects do not deadlock", "statement": "Whatever goroutines are to do with a cache, request cache, store or metrics, and however far they are, one of them can go on while anything is left to do, and all can finish, with every mutex free. (Violated: a cache whose miss function asks the cache itself hangs at the first miss, and two caches whose miss functions ask each other may hang; proved for callbacks that use no cache.)", "quantifier": "every number of goroutines, every finite sequence of calls, every reachable state", "why_tests_cant": "a deadlock needs one particular interleaving, and no test shows that there is none", "anchors": ["utils/caches/lru.go:34-98", "utils/caches/mem.go:22-42", "utils/caches/request.go:31-71", "storage/keyvalue.go:32-80", "utils/prom/metric.go:20-46", "utils/prom/histogram.go:29-124"]}
{"id": "C172", "title": "The response wrapper lets handlers do what the writer of net/http does", "statement": "Through any number of wrapper layers (a server has one, `Handle` adds one), a handler's writes, statuses and takeovers of the connection have the effects and answers they have without layers, at every moment; a connection can be taken over exactly if net/http lets it, and from then on the client sees exactly the bytes the handler writes to the connection. Flushing sends what was written so far, and the code that is measured is one the client was sent. (Violated: the wrapper has neither `Flush` nor `Unwrap`, so nothing is sent before the handler ends unless it overflows the buffer of net/http; a connection that was taken over, as every websocket, is measured with the code 0, or with a code of a later `WriteHeader` that was never sent.)", "quantifier": "for all servers of net/http (whether or not they allow hijacking, whatever they send when their buffer is full), all numbers of layers, all sequences of statuses from 200 on, writes, flushes, takeovers and raw writes", "why_tests_cant": "Tests with a recorder or short responses see the whole response at the end, where flushing makes no difference, and nobody looks at the code measured for a websocket.", "anchors": ["http/mux.go:L20-L40", "http/mux.go:L48-L80", "http/server.go:L44-L64"]}
{"id": "C173", "title": "An any gets what encoding/json would give it, wherever it stands, and Digits are numbers", "statement": "Unmarshalling a JSON text into an `any` stores what `encoding/json` stores and fails where it fails; what a part of a list or object becomes in an `any` is what the part alone would become; a node of `Digits` is encoded as a number. What holds: the first, for texts whose numbers float64 can hold; the second, for everything but times and durations; and whatever documents `Digits` hold, the encoded node reads back as the node with those documents in their places. (Violated: a number out of range becomes a string instead of an error; a time is an `enc.Time` alone and in an `[]any`, and a `time.Time` inside a list in an `any`; `Digits` with any JSON document in it is written as that document, other texts panic.)", "quantifier": "for all texts, nodes of any nesting, digits holding any text", "why_tests_cant": "Range errors of floats, nodes of times in lists and Digits that hold objects are not what a test of numbers tries; whether the encoder can be made to write something else by a text inside a node is a question about all texts.", "anchors": ["enc/numeric.go:L113-L121", "enc/list.go:L42-L45", "enc/map.go:L18-L31", "enc/map.go:L118-L123", "enc/pairs.go:L50-L63", "enc/time.go:L58-L65", "enc/time.go:L88-L95"]}
{"id": "C174", "title": "APIs are run by the requests they document", "statement": "A registered API runs Do for the requests its document describes, a POST of a JSON object as application/json, and for no others: GET and HEAD change nothing, and what a browser sends without asking is not taken. (Violated: neither the method nor the content type is looked at, so every request with the same body does the same, HEAD included; if nothing is required a request without a body, such as that for a link, runs Do with zero inputs; proved: a body that is not taken changes nothing and is refused, whatever the method.)", "quantifier": "every API, state of the application, Do, request, method, headers and body", "why_tests_cant": "all methods and headers", "anchors": ["http/server.go:Server.handleRequest", "http/api.go:Server.RegisterAPI", "api/json.go:JSON.ReadFrom", "api/handler.go:Handler.UpdateOpenAPI"]}
{"id": "C175", "title": "Websocket callers are told what went wrong", "statement": "When a method called over a websocket returns an error, the `return` frame of the call carries the error's text and the `error` frame of the channel repeats it, after the method's replies; both can be read by the client; the connection and its other channels go on. When a frame ends the connection, the last frame tells why. Texts of internal errors are not told, as over http. (Violated: only errors of `ctx` are sent as text. Errors of the standard library, and every error that wraps an error of `ctx` with `%w` - so every unreadable argument - are sent as `{}`; `http.Error` as an object; other errors as all their exported fields. An error whose value can not be marshalled ends the whole connection, with nothing sent about the call and `{}` as the reason; so does a panic. The text of every error, also of internal ones, is sent.)", "quantifier": "All error trees of the standard library, ctx and http, all errors of other types with any value of any type, all methods, replies, channels, paths, connections and frames.", "why_tests_cant": "Tests look at one error made with ctx.NewErrorf; which text is lost depends on the type of the error and on what it wraps.", "anchors": ["http/ws/reflect.go:41-61", "http/ws/reflect.go:70-95", "http/ws/channel.go:28-60", "http/ws/conn.go:58-67", "enc/handler.go:175-302", "ctx/error.go:14-62"]}
{"id": "C176", "title": "Strings cross the wire byte for byte", "statement": "Any node written as JSON and read again has the same bytes in all its strings and keys, and the same members: for UTF-8 this is proved, with the decoding of UTF-8 itself (every text is read back from its bytes, the valid byte strings are exactly the texts, a byte string is determined by its runes and invalid bytes, and the order of bytes is the order of characters, so keys are written in the order of the model). What is written is UTF-8 and JSON whatever the strings hold. (Violated: a string that is not UTF-8 comes back as another one, and two members of a map whose keys differ in invalid bytes only become one, without an error.)", "quantifier": "All byte strings, all nodes with byte strings and keys nested up to 10000 deep, all texts.", "why_tests_cant": "Tests use ASCII literals; invalid bytes come from files, headers and query strings of clients.", "anchors": ["enc/json.go:49-86", "enc/map.go:26-31", "enc/handler.go:175-262", "utils/prom/labels.go:8-20", "test/util.go:86-106"]}
{"id": "C177", "title": "HTTP responses that are cut short are not taken for others", "statement": "If only a beginning of the JSON object a server sends arrives at Client.API - the connection ends, even in the middle of a character - the call fails and the object of the caller is left as it was; so no beginning of the bytes of a JSON text other than a number is JSON. (Violated: if nothing of the body arrives, which net/http does not notice for responses delimited by the end of the connection, the call succeeds and the outputs are what they were, since JSON.ReadFrom takes an empty body for an empty object.)", "quantifier": "all JSON object texts with white space before, all places to cut their bytes, all objects, handlers and orders", "why_tests_cant": "Cuts at every byte of every response, inside escapes, characters and nested values, can not be enumerated.", "anchors": ["http/client.go:75-126", "api/json.go:31-51", "enc/json.go:74-86"]}
{"id": "C178", "title": "Nil inside of nodes means the same everywhere", "statement": "A nil enc.Node inside of a List, Map or Pairs means Nil{}, and a nil enc.List an empty list, for Encode, Marshal and Unmarshal alike. (Violated: Encode writes null for both, so that a nil list is [] for Unmarshal and no list at all for whoever reads the JSON; Unmarshal of a nil element panics, however deep it is, for any and for all types but enc.Node, times and durations, and behind a pointer gives a new variable where Nil gives nil; Marshal replaces nil by Nil in maps and pairs, but not in lists.)", "quantifier": "all nodes with nil interfaces and nil lists anywhere inside, all types, handlers and orders", "why_tests_cant": "Where nil is inside of a node, how deep, and what it is unmarshalled into, has no bound.", "anchors": ["enc/handler.go:51-160", "enc/handler.go:176-197", "enc/list.go:15-58", "enc/map.go:18-31", "enc/pairs.go:26-63"]}
{"id": "C179", "title": "A call that is redirected is the call, or it fails", "statement": "The HTTP client of the framework follows redirects. A call that is redirected on its way either runs the API at the last address on the inputs the client sent, or the client is told of an error and its object is as it was. Redirects that keep the method and the body (307, 308) do so, a redirect that says nowhere is an error with its code, more than nine redirects are an error and no call makes more than ten requests. (Violated: after a redirect with 301, 302 or 303, which is how proxies lead from http to https, the request arrives as a GET without a body; as the server neither looks at the method nor asks for a body, the API runs on the zero values of its inputs if none of them is required, and the client takes the answer as the answer to its call.)", "quantifier": "for every chain of redirects of at most nine codes, every answer of the addresses and their state, every body, every API and every object of the client", "why_tests_cant": "a test server answers calls where they are made; nobody puts a redirecting proxy in front of it", "anchors": ["http/client.go:62-73", "http/client.go:75-126", "http/server.go:191-246", "http/api.go:26-63"]}
{"id": "C180", "title": "A client calls an API where the server registers it", "statement": "The url of an API is a tag that both sides read. The client makes of it an address relative to its BaseUrl, by way of three parsers and two printers of urls and a request line; the server registers the path of the url. For a url that is a clean path, escaped or not, with or without a query, the request arrives at the host of BaseUrl with exactly the path that is registered and is handled there; without BaseUrl it is an error. Clean are exactly the paths the multiplexer leaves alone, and only APIs with such a path can be called. (Violated: the path of BaseUrl is ignored, so that a server behind a prefix can not be called; a url with . or .. is registered as it is and called without them; a url with an empty element, like /a//b, is registered and called but no request is ever handled there, as the multiplexer redirects to another path with 301, which loses the inputs.)", "quantifier": "for every tag as a sequence of bytes, every BaseUrl with a host, and every reading of authorities that reads that host as it is", "why_tests_cant": "the urls in tests are plain words at the root of a server", "anchors": ["api/tag.go:44-50", "http/client.go:91-104", "http/api.go:66-75", "http/server.go:191-192"]}
{"id": "C181", "title": "Unmarshalling again changes nothing, and documents can be laid over each other", "statement": "Whether a document can be unmarshalled into a variable, and which unknown fields it reports, does not depend on what the variable held. Unmarshalling the same document again changes nothing, even if it fails. If it succeeds, then a variable that is not a struct holds nothing of what it held before, and so does a struct all of whose fields the document has. Two documents that name no field both can be unmarshalled into a struct in either order, and are as one document that has the fields of both. (Violated behind pointers: there a field that the later document does not mention is reset, not kept.)", "quantifier": "all types, nodes, variables and handlers, all pairs of documents", "why_tests_cant": "the documents, types and previous values are unbounded, and tests unmarshal into fresh variables", "anchors": ["enc/handler.go", "enc/map.go", "enc/list.go", "enc/pairs.go"]}
{"id": "C182", "title": "A program with another version of a type reads what both versions have", "statement": "Let the second type be a version of the first one: at any depth structs may have more fields, fewer fields and fields in another order, fields of one name have types that are versions of each other, and integers may be wider; the struct tags of the reader are valid. What a program marshals of the first type, as a node or as JSON text, another program unmarshals as the second type without an error, unless its handler refuses unknown fields: elements, keys, numbers and texts are the same, every field that both versions have is the value the writer had, and every field that only the reader has is zero.", "quantifier": "For all pairs of types in which the second is a version of the first, all faithful values (those that come back as themselves, C40 and C41), all map orders of both programs, and all handlers that refuse nothing; for text up to the depth JSON allows.", "why_tests_cant": "Old and new releases of a service talk to each other during every deployment; a test has the types of one release only, and the pairs of versions are unbounded.", "anchors": ["enc/handler.go:51-318", "enc/map.go:51-125", "enc/pairs.go", "enc/json.go:28-42"]}
{"id": "C183", "title": "Clients and servers of different releases understand each other", "statement": "Let a client and a server have different versions of a request type: inputs and outputs that both have, by name, have types that are versions of each other (C182). The client's request is then accepted, each input of the server being what is seen of the client's input of that name, or zero if the client has none; and after the call each output of the client is what is seen of the server's output of that name, or zero if the server has none, the client's other fields being as before. A server that requires an input refuses every client that has no input of that name. The same holds of a call over http, where a client that is refused gets an error and keeps its object as it was.", "quantifier": "For all pairs of struct types that are handlers, with all their fields exported, all templates, all map orders on both sides, all values of the client whose inputs survive the wire, with required inputs not zero and no login required, and all server programs that answer with outputs that survive the wire.", "why_tests_cant": "Releases are tested against themselves; the pairs of releases that meet in production, with every order of fields and every nested change, are not.", "anchors": ["api/handler.go:196-272", "api/json.go:23-89", "enc/handler.go:51-318", "enc/map.go:51-125", "http/client.go:75-126"]}
{"id": "C184", "title": "Websocket channels keep to themselves", "statement": "What a client does on a channel of a registered object is not seen on any other channel: the object of a channel, and what its methods see, are as if there were no other channels. (Violated: the fields of the registered object are copied as they are, so all channels of all connections share what its pointers, maps and slices lead to: what one client sends can be seen by another client, and of two updates made at the same time one may be lost. It holds as long as no method writes what the registered object leads to, and always if no field of the registered object is a reference.)", "quantifier": "For all registered objects, all methods as programs that set, copy, follow and write references, all numbers of channels, all calls on them, and all orders in which statements of different channels are run.", "why_tests_cant": "Tests open one channel; data of one client shows up at another one only if two are connected and a method writes through a field that was set when the object was registered.", "anchors": ["http/ws/reflect.go:22-62", "http/ws/reflect.go:70-95", "http/ws/reflect.go:118-128", "http/ws/handler.go:114-136"]}
{"id": "C185", "title": "The tracking id of an error response tells the request", "statement": "All that a client is told of an internal error is a tracking id. It is that of the request: it is the one in the log lines of the request, and other requests and websocket connections of the server have others. The log lines written for a request show its path, user agent, client and listener, and nothing of other requests. (Violated: the server makes no tracking id for a request. Every request has that of the context given to Listen, so that two internal errors with the same status get the same response byte for byte, and an empty id if that context has none. Websocket connections share one id if that context has one. The warning about a second status is logged without any context. What holds: the tags of log lines, that response and log agree on the id, and fresh ids for websocket connections if the context given to Listen has none.)", "quantifier": "All contexts given to Listen, all requests (addresses, headers, paths, bodies), all functions registered and all errors they return.", "why_tests_cant": "A test looks at one request, and the id it sees there is that of the log; that the next request has the same id, or that the id is only missing because the test's context was built another way, is not seen.", "anchors": ["http/server.go:46-48", "http/server.go:94-101", "http/server.go:193-224", "http/mux.go:20-34", "http/mux.go:59-67", "http/ws/handler.go:33-35", "http/ws/handler.go:81-83", "ctx/span.go:17-62"]}
{"id": "C186", "title": "Handlers are told when their request is over, and of no other", "statement": "The context that an API, a Call handler, a handler registered by Handle or a websocket gets is cancelled exactly if the request, its connection, its own timer or span, or a context that the one given to Listen derives from was cancelled; the end of the requests and connections of other clients leaves it as it is. Its deadline is that of the context given to Listen, and for Call handlers that or ReadTimeout after the request, whichever comes first.", "quantifier": "All contexts given to Listen (with deadlines, cancels and Detach anywhere), all numbers of requests, all histories of creating and cancelling contexts.", "why_tests_cant": "Needs a history in which some contexts were cancelled and others were not, for every way contexts can be derived; tests cancel one.", "anchors": ["http/server.go:46-57", "http/server.go:94-101", "http/call.go:29-46", "http/mux.go:20-34", "http/ws/handler.go:33-35", "http/ws/handler.go:81-83", "ctx/helper.go:8-36"]}
{"id": "C187", "title": "What goes wrong is in the log", "statement": "Whenever handling a request, a call or a websocket frame fails, or its response can not be sent, a line of level warning or above is logged that has the text of the error, so that errors of which clients are not told can be found there. (Violated: errors of Call handlers are neither logged nor sent; the errors that methods and Init return over a websocket are not logged; a failing gzip.Writer.Close, which writes the rest of a long response, and failing writes of error responses go unnoticed. What holds: every failing request of HandleRequest or an API is logged in exactly one line with its text, so that internal errors which clients can not tell apart differ in the log; responses that are not gzipped are sent whole exactly if nothing is logged; panics of methods are logged.)", "quantifier": "All functions and methods registered, all errors, response sizes, Accept headers and patterns of failing writes.", "why_tests_cant": "Tests look at responses and hardly ever at the log; a write that fails at the end of a long gzipped response does not happen in tests.", "anchors": ["http/server.go:193-245", "http/call.go:27-62", "http/ws/channel.go:28-60", "http/ws/handler.go:119-132", "http/ws/reflect.go:23-62"]}
{"id": "C188", "title": "Those who do not go on hold up only those who need them", "statement": "The methods that lock a mutex also write to connections, fetch what is not in a cache, or log, and such a call may take for ever. Goroutines that have stopped in such calls hold up nobody: every other goroutine can be finished. (Violated: a histogram is printed to the connection of the scraper with the mutex of the series held, so one that stops reading holds up every request of that series at its end; a fetch holds the mutex of its cache, so it holds up lookups of keys that are there, and Invalidate; Range logs with the mutex of the store held, so a logger that stops holds up the store. What does hold: a goroutine can be finished exactly if those that have stopped hold none of the mutexes it has still to lock; they hold only the series being written, the cache or the entry being fetched for, the store being looked at, and the connection being written; nobody waits for the registry, for counters, for the function given to Range, for other series, caches, entries, stores and connections.)", "quantifier": "all programs of all goroutines over the methods of metrics, caches, stores and websockets, all interleavings, all sets of goroutines that have stopped", "why_tests_cant": "A test would have to stop a goroutine in each call out in turn, in every interleaving, and no test can see that something never finishes.", "anchors": ["utils/prom/histogram.go", "utils/prom/http.go", "utils/caches/lru.go", "utils/caches/mem.go", "utils/caches/request.go", "storage/keyvalue.go", "http/ws/ws.go"]}
{"id": "C189", "title": "Websocket clients and objects of different releases understand each other", "statement": "Let a client and a server be of different releases: arguments and replies have types that are versions of each other (C182), methods may have gained or lost their argument, and one of the two may know methods and objects the other does not. What the client sends as its version of an argument, of a method or of Init, is what the method gets, as it is seen in the server's version; replies are read in the same way; a method that lost its argument is called whatever is sent, and one that gained it gets zero; and what the other does not know is answered with an error. (Violated: calling a method, or opening an object, that the server does not have ends the connection, with all its channels, and what the client sends after that is not looked at.)", "quantifier": "all pairs of types in which one is a version of the other, all values that survive JSON and are no empty text in an any, all map orders, all objects, states and methods, all sessions", "why_tests_cant": "A test needs two releases at once, and can only try the pairs of types somebody thought of.", "anchors": ["http/ws/channel.go", "http/ws/reflect.go", "http/ws/rpc.go", "enc/handler.go"]}
{"id": "C190", "title": "Fetches that panic do no harm to a cache", "statement": "The miss function of a cache and the fetch of a request cache are the user's and may panic, and servers recover from panics. The panic reaches the caller and nobody else: the mutexes are released, an LRU or a Mem is then exactly what it would be without the call, the other calls, of whatever goroutines, answer as if it had not been made, and a request cache serves nothing of a fetch that panicked: the next request fetches, and a hit is what the latest fetch that returned has returned. (Violated: a request cache makes room before it fetches, so that a fetch which panics, fails or is not to be kept pushes out the result of another key that was to be served.)", "quantifier": "for every interleaving of any number of goroutines on an LRU or a Mem and every choice of the calls whose miss function panics; for every sequence of requests and invalidations on a request cache, every budget that is not negative and every clock", "why_tests_cant": "A test has one panic at one place; that the rest of the history is not affected is about all histories and interleavings.", "anchors": ["utils/caches/lru.go:61-98", "utils/caches/mem.go:28-41", "utils/caches/request.go:35-71"]}
{"id": "C191", "title": "What a websocket client makes the server keep", "statement": "A connection keeps the channels that are in use: those the client opened for registered objects, one for each name, and nothing else that a client sends adds to them; a channel that was closed, or whose object could not be made, is forgotten, so that what is kept does not grow with the age of the connection. (Violated: nothing removes a channel. Channel.Close would, but neither frames nor objects can reach it: a frame of type close and C.Close close the connection. A channel is stored before its object is made, and stays, without methods, if that fails. A client that opens n names makes the server keep n channels, whatever is sent afterwards.)", "quantifier": "for all registries, sequences of frames, states of the connection, methods of the objects and numbers of names", "why_tests_cant": "Tests open a channel or two, use them and end; what a connection keeps after a channel is done is seen in the memory of servers whose connections live for days, and only a statement about all frames says that there is no way to give a channel back", "anchors": ["http/ws/rpc.go", "http/ws/channel.go", "http/ws/handler.go"]}

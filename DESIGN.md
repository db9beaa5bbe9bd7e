# Formal model of Aize-Public/forego in Lean 4

## Trusted base

* Lean 4.33.0's kernel. No `native_decide`, `bv_decide`, `implemented_by`, `unsafe`, custom axioms, `sorry` or `admit`.
* Axioms: at most `propext`, `Classical.choice` and `Quot.sound`. The printout per theorem is in `AXIOMS.md`.
* The correspondence between the Go text and the Lean definitions is by reading. Each definition cites file and lines
  in /repo.
* Go's own semantics where modelled: slices as lists (aliasing only where stated), maps as association lists with
  distinct keys, `int` as `Int` unless overflow matters (then wrap-around is explicit), mutex-protected sections as
  atomic steps, goroutines as machines over explicit steps, any interleaving allowed.
* Standard-library code outside /repo is modelled from its documented behaviour and source: `container/heap`
  (`Fix`, `Push`, `Pop`, `up`, `down`), `encoding/json` (encoder escaping, decoder grammar with `UseNumber`, depth
  limit), `strconv.Quote/Atoi/ParseInt/ParseBool`, `context`, `errors.Is/As/Join`, `sync.Mutex/Once/WaitGroup/Map/Cond`,
  `http.ResponseWriter` status rules, `http.Server.Serve/Shutdown`, `strings.Split/TrimSuffix`, `path/filepath` on
  Unix, `go/ast.Inspect` order, redirects of `http.Client` (C179), `net/url` parsing and printing and the path cleaning of
  `http.ServeMux` (C180, from Go 1.20).

## Parameters and what is assumed of them

Every theorem is stated for all values of these parameters; an assumption appears as a hypothesis.

| parameter | stands for | assumed |
|----|----|----|
| `Ext` (`Enc/Node`) | `float64`, `time.Time` and their formatting/parsing | `Laws`: the JSON text of a float is a JSON number, and parses back to that float |
| `lenient`, `strictly` (`Enc/Rfc3339`) | what `time.Parse`/`time.Time.UnmarshalJSON` do when their RFC 3339 parser gives up | for C139_years only `FourDigits`: a year is four digits and a dash |
| `Product` (`Enc/DurText`) | `uint64(float64(f) * (float64(unit) / scale))` in `time.ParseDuration` | exact where `scale` divides `unit` (all values are integers below 2^53) |
| `NetExt` (`Http/Model`) | gzip, bytes read as text, `url.ParseQuery`, body sizes | nothing, except where a theorem says gunzip inverts gzip or that UTF-8 is read back (`TextLaw`, which holds of the decoder of `Enc/Utf8`: C176_text_law) |
| `FloatOps` (`Prom/Model`) | float addition and comparison in metrics | nothing |
| `isPrint` (`Prom/Quote`) | `strconv.IsPrint` table | nothing |
| `NumFmt` (`Prom/Print`) | `%v` of floats and ints in exposition text | stated per theorem (no newline or space in a number) |
| `Order` | map iteration order | any permutation |
| comparators, callbacks, handlers | user functions | arbitrary; panics and errors are among their results |
| clock, schedules, signals | environment | arbitrary sequences |
| `Web`, `again` (`Http/Redirect`) | what addresses answer; whether a body dropped by one redirect comes back with a later one (differs between versions of Go) | nothing |
| `A` (`Http/Address`) | `parseAuthority` of `net/url` | it reads the host of `BaseUrl` as it is |
| `x/net/websocket` (`Ws/Transport`, `Ws/Cut`) | frames of a connection | frames come in order; `NewFrameReader` ignores FIN; a payload ends with `io.EOF` if the connection ends within it |

## Layout

`lean/Verif/<Area>/Model.lean` (or a file named after the Go file) holds the model, `Lemmas.lean` the helper lemmas,
`Spec.lean` a small independent specification where one is needed, `Props.lean` the property theorems and their
non-vacuity examples. `Base.lean` has panics-as-values, `Strconv.lean` shared text functions.

## Conventions

* A Go panic is a value of the result type (`Except Panic`, or a constructor), never a totalised default.
* Error returns are values. `nil` is an explicit case.
* Where the code violates a property, the negation is proved with a concrete witness (`..._violated`), and the part
  that does hold is proved with suffix `_partial` or as a theorem with an explicit hypothesis.
* Each theorem has an `example` nearby showing a concrete, non-trivial state that meets its hypotheses.
* Theorems are tested against wrong programs: `seeded/LOG.jsonl` has one line per attempt, so an edit that survived and was
  run again after a theorem was tightened has several lines. `breaks` is the claim named before the run; where it was
  found to be mislabelled, `claim_relabelled_from` keeps the earlier one. Verdicts: `caught` (the proof of a theorem of that
  claim failed), `caught by another claim`, `lemma of the claim failed` and `lemma of another claim failed` (only a helper
  lemma failed; the property theorems listed under `depend_on_failed_lemmas` rest on it, which is weaker evidence, since a
  lemma can fail because its proof is brittle), `only examples or unused lemmas failed`, `survived`, `invalid` (the edit
  does not compile) and `inconclusive` (the prover ran out of memory). A failed proof shows that the proof no longer goes through, not by itself that the statement is false.

## Properties, models and proofs

| id | property | status | model and method | proved in |
|----|----|----|----|----|
| C01 | LRU cache stays structurally sound and within its size budget | proved | heap list + index + totals, Go `container/heap` sifts on lists; invariant preserved by every operation | `Caches/Props` |
| C02 | LRU cache returns the value it was given, and calls onMiss exactly when it must | proved | ghost history beside the state; refinement to a partial function | `Caches/Props` |
| C03 | LRU.Invalidate removes exactly the named key | proved | heap minimum argument, permutation of the remaining entries | `Caches/Props` |
| C04 | LRU eviction removes oldest-inserted entries first and no more than needed | proved | evicted = smallest insertion stamps; loop = shortest prefix of the sorted order | `Caches/Props` |
| C05 | LRU cache evicts the least recently used entry | partial | negation by a trace; the FIFO order that does hold | `Caches/Props` |
| C06 | Memoising cache refines a partial function | proved | ghost history beside the state; refinement to a partial function | `Caches/Props` |
| C07 | Request cache serves a stored result until its TTL passes | proved | sequential step with a clock, induction over histories | `Caches/ReqProps` |
| C08 | Request cache never runs two fetches for one entry at once | proved | interleaving machine: program counter per call, lock per entry; inductive invariant | `Caches/ReqProps` |
| C09 | Split partitions a slice in order within the size limit | proved | list functions; induction | `Lists/Props` |
| C10 | Reverse reverses in place and is an involution | proved | list functions; induction | `Lists/Props` |
| C11 | Permute enumerates every permutation exactly once | proved | Johnson–Trotter by induction on n, projecting away the largest element | `Lists/PermProps` |
| C12 | Set and AddUnique behave as mathematical sets | partial | list functions; induction | `Lists/Equal`, `Lists/Props` |
| C13 | OrderedMap refines an insertion-ordered association list | proved | tombstone list + index; simulation of an association list | `OMap/Props` |
| C14 | OrderedMap.Range stops at the first error and visits a prefix | proved | tombstone list + index; simulation of an association list | `OMap/Props` |
| C15 | Timed TryLock never reports a lock it does not hold nor keeps one it gave up | proved | machine of callers, helper goroutines and mutex owner; inductive invariant | `Sync/Props` |
| C16 | sync.Map wrapper behaves like a map, except that iterating panics on stored nil interfaces | proved | map of optional values; refinement | `Sync/MapProps` |
| C17 | ReadAll returns every byte of well separated readers but loses bytes delivered with an error | proved | readers as event machines; induction over schedules | `Utils/ReadAllProps` |
| C18 | ErrorGate swallows exactly its own marker | proved | error trees with `errors.Is/As` walks; structural induction | `Errors/Props` |
| C19 | Context errors carry one stack, that of the innermost wrap | proved | error trees with `errors.Is/As` walks; structural induction | `Errors/Props` |
| C20 | ErrorCode reports the outermost HTTP code in an error tree | proved | error trees with `errors.Is/As` walks; structural induction | `Errors/Props` |
| C21 | Tags are visited parents first, in order, with duplicates, stopping at the first error | proved | context chains; induction on the chain | `Ctx/Props` |
| C22 | Detach keeps values and drops cancellation | partial | context chains; induction on the chain | `Ctx/Props` |
| C23 | Sibling spans get distinct tracking ids | partial | heap of shared cells; frame and negation witnesses | `Ctx/Props` |
| C24 | Attaching a logger to a child context does not affect its parent | partial | heap of shared cells; frame and negation witnesses | `Ctx/LogProps` |
| C25 | Redacted strings never reach the log message | proved | formatter abstract; non-interference | `Ctx/LogProps` |
| C26 | Label rendering is injective and rejects arity mismatch | proved | `strconv.Quote` on characters; prefix-freeness, injectivity | `Enc/BytesJson`, `Prom/Props` |
| C27 | Histogram buckets are cumulative counts | proved | series tables; induction over observations, interleaving witness | `Prom/Props` |
| C28 | Scraping a histogram never panics | partial | series tables; induction over observations, interleaving witness | `Prom/Props` |
| C29 | Counters and gauges report the exact sum per label tuple | proved | series tables; induction over observations, interleaving witness | `Prom/Props` |
| C30 | Metric names are registered at most once | proved | series tables; induction over observations, interleaving witness | `Prom/Props` |
| C31 | Shutdown begins once and is never undone | proved | event-step machines; inductive invariants | `Shutdown/Props` |
| C32 | Done closes only when no hold is outstanding | partial | event-step machines; inductive invariants | `Shutdown/Props` |
| C33 | Signals escalate: graceful, cancel, exit | proved | event-step machines; inductive invariants | `Shutdown/SignalProps` |
| C34 | Key-value store refines a map of records | proved | association-list store and filters; refinement | `Storage/Props` |
| C35 | Range visits exactly the matching records once, from a snapshot | proved | association-list store and filters; refinement | `Storage/Props` |
| C36 | Filters compare field values; missing fields count as nil; unsupported operators are errors when reached | proved | association-list store and filters; refinement | `Storage/Props` |
| C37 | Configuration loading sets exactly the tagged fields | proved | field descriptors, lookup function, text parsers; structural induction on types | `Config/Props` |
| C38 | Configuration text parses as documented | proved | field descriptors, lookup function, text parsers; structural induction on types | `Config/Props` |
| C39 | JSON encoding round-trips | proved | character-level JSON printer and parser; continuation-style round trip | `Enc/JsonProps` |
| C40 | Typed values survive Marshal then Unmarshal | proved | universe of Go types and values; mutual structural induction | `Enc/TypedProps` |
| C41 | Typed values survive the JSON wire | proved | universe of Go types and values; mutual structural induction | `Enc/TypedProps` |
| C42 | Unmarshal writes only what the input mentions | proved | universe of Go types and values; mutual structural induction | `Enc/Failing`, `Enc/TypedProps` |
| C43 | Fields tagged json:"-" are neither written nor read | partial | universe of Go types and values; mutual structural induction | `Enc/TypedProps` |
| C44 | omitempty drops exactly empty strings, zero numbers and nils | proved | universe of Go types and values; mutual structural induction | `Enc/TypedProps` |
| C45 | Integers are converted without silent change | partial | universe of Go types and values; mutual structural induction | `Enc/ShapeProps`, `Enc/TypedProps` |
| C46 | Decimal digits convert to integers by dropping the fraction | partial | universe of Go types and values; mutual structural induction | `Enc/TypedProps` |
| C47 | Pipe is a pair of bounded FIFO queues with idempotent close | proved | two bounded queues with close; history invariant | `Pipe/Props` |
| C48 | Pairs lookups agree except for duplicate keys | proved | universe of Go types and values; mutual structural induction | `Enc/TypedProps` |
| C49 | Servers accept only declared inputs | proved | handler = field lists over the typed universe; decision logic, composition | `Api/CallProps` |
| C50 | Required inputs and required authentication are enforced | partial | handler = field lists over the typed universe; decision logic, composition | `Api/CallProps` |
| C51 | Responses and requests carry only declared fields | proved | handler = field lists over the typed universe; decision logic, composition | `Api/CallProps` |
| C52 | Client and server agree on a call | partial | handler = field lists over the typed universe; decision logic, composition | `Api/CallProps` |
| C53 | Handler tags are validated | proved | handler = field lists over the typed universe; decision logic, composition | `Api/Props` |
| C54 | Every schema reference resolves | partial | type graph with ids, component table, fuelled walk with enough-fuel proof; invariant on defined names | `Openapi/Props` |
| C55 | Unsupported types are reported as errors | partial | type graph with ids, component table, fuelled walk with enough-fuel proof; invariant on defined names | `Openapi/Props` |
| C56 | Error responses follow the error code and internal errors never leak | partial | response writer state, client and server composed; decision logic | `Http/Props` |
| C57 | Success responses use 204 for empty and gzip only when large and accepted | proved | response writer state, client and server composed; decision logic | `Http/Props` |
| C58 | The first status code wins and is the one measured | partial | response writer state, client and server composed; decision logic | `Http/Props` |
| C59 | Client treats only 200 and 204 as success | partial | response writer state, client and server composed; decision logic | `Http/ClientProps` |
| C60 | WebSocket frames are handled one at a time in arrival order and the connection is always closed | proved | connection loop and dispatcher machines; invariants | `Ws/Loop` |
| C61 | RPC frames reach only the object opened on their channel | proved | connection loop and dispatcher machines; invariants | `Ws/RpcProps` |
| C62 | A failed constructor refuses the channel | partial | connection loop and dispatcher machines; invariants | `Ws/RpcProps` |
| C63 | Frames survive the wire | partial | frames through the JSON model | `Ws/Wire` |
| C64 | Buffered test pipe delivers bytes in order | proved | chunk queue with condition variable; invariant | `TestIO/Props` |
| C65 | Formatting the same log arguments twice gives the same result | partial | heap of shared cells; frame and negation witnesses | `Ctx/LogProps` |
| C66 | Rendered label values are readable in the Prometheus text format | partial | `strconv.Quote` on characters; prefix-freeness, injectivity | `Prom/Props` |
| C67 | Taking a hold never crashes the process | partial | event-step machines; inductive invariants | `Shutdown/Props` |
| C68 | Equality filters are reliable for compound values | partial | association-list store and filters; refinement | `Storage/Props` |
| C69 | Stored records are isolated from later edits | partial | association-list store and filters; refinement | `Storage/Props` |
| C70 | Configuration loading reports problems as errors, never by panicking | partial | field descriptors, lookup function, text parsers; structural induction on types | `Config/Props` |
| C71 | Everything that can be encoded can be decoded | partial | character-level JSON printer and parser; continuation-style round trip | `Enc/JsonProps` |
| C72 | Decode rejects trailing data | partial | character-level JSON printer and parser; continuation-style round trip | `Enc/JsonProps` |
| C73 | Decoded documents re-encode | proved | character-level JSON printer and parser; continuation-style round trip | `Enc/SafetyProps` |
| C74 | Marshal never panics | partial | universe of Go types and values; mutual structural induction | `Enc/SafetyProps`, `Enc/ShapeProps` |
| C75 | Unmarshalling decoded JSON never panics | partial | universe of Go types and values; mutual structural induction | `Enc/SafetyProps`, `Enc/ShapeProps` |
| C76 | Results do not depend on map iteration order | partial | universe of Go types and values; mutual structural induction | `Enc/SafetyProps` |
| C77 | Values in an any survive the JSON wire | partial | universe of Go types and values; mutual structural induction | `Enc/SafetyProps` |
| C78 | Serving a registered handler never panics | partial | handler = field lists over the typed universe; decision logic, composition | `Api/CallProps` |
| C79 | An error of a handler is an error for the client, with the same code | partial | response writer state, client and server composed; decision logic | `Http/ClientProps` |
| C80 | Call handlers, /live and /ready answer as documented | proved | response writer state, client and server composed; decision logic | `Http/ClientProps` |
| C81 | Requests that can not be read are refused as the client's fault | partial | response writer state, client and server composed; decision logic | `Http/ClientProps` |
| C82 | APIs that require an identity can be called over http | partial | response writer state, client and server composed; decision logic | `Http/ClientProps` |
| C83 | Calling an API over http is calling it | partial | response writer state, client and server composed; decision logic | `Http/ClientProps` |
| C84 | Client.API never panics | partial | response writer state, client and server composed; decision logic | `Http/ClientProps` |
| C85 | Listen returns | partial | Serve/Shutdown goroutines as a machine | `Http/Listen` |
| C86 | Different types have different definitions | partial | type graph with ids, component table, fuelled walk with enough-fuel proof; invariant on defined names | `Openapi/Props` |
| C87 | Schemas describe what is written | partial | type graph with ids, component table, fuelled walk with enough-fuel proof; invariant on defined names | `Openapi/Handler` |
| C88 | A handler does what it documents | proved | type graph with ids, component table, fuelled walk with enough-fuel proof; invariant on defined names | `Openapi/Handler` |
| C89 | A waiting reader of the buffered pipe is woken | partial | chunk queue with condition variable; invariant | `TestIO/Props` |
| C90 | The reading goroutine of a websocket connection ends with its loop | partial | connection loop and dispatcher machines; invariants | `Ws/Loop` |
| C91 | Closing one channel leaves the others alone | partial | connection loop and dispatcher machines; invariants | `Ws/RpcProps` |
| C92 | The end of a websocket connection is announced | partial | connection loop and dispatcher machines; invariants | `Ws/RpcProps` |
| C93 | A call of the websocket test client returns the result of that call | partial | client goroutines as a machine | `Ws/TestClient` |
| C94 | A context value is the one attached last, and tags are values under plain string keys | proved | context chains; induction on the chain | `Ctx/ValueProps` |
| C95 | A deadline is never extended | proved | context chains; induction on the chain | `Ctx/ValueProps` |
| C96 | The failing assertion is identified by its source | proved | syntax trees with positions; walk characterised against a declarative spec | `Ast/Props` |
| C97 | The assignment shown for an argument is the one in force | partial | syntax trees with positions; walk characterised against a declarative spec | `Ast/Props` |
| C98 | Building an assertion message does not panic | partial | syntax trees with positions; walk characterised against a declarative spec | `Ast/Props` |
| C99 | Function names and stacks | proved | path and name functions; induction on segments | `Utils/StackProps` |
| C100 | Trimmed source paths are mapped to files of this module only | partial | path and name functions; induction on segments | `Utils/StackProps` |
| C101 | The module is found from the nearest go.mod | partial | path and name functions; induction on segments | `Utils/StackProps` |
| C102 | Assertions and their opposites | proved | assertions as decisions plus messages | `Test/Props` |
| C103 | Quoted values in messages are faithful | partial | assertions as decisions plus messages | `Test/Props` |
| C104 | Nil, Empty and NoError classify values correctly | partial | assertions as decisions plus messages | `Test/Props` |
| C105 | Shift and Pop take from the two ends | proved | list functions; induction | `Test/Props` |
| C106 | Exposition text of a scrape | proved | exposition text; line grammar, reading it back | `Prom/PrintProps` |
| C107 | A failing scrape is reported to the scraper | partial | exposition text; line grammar, reading it back | `Prom/PrintProps` |
| C108 | One sample per line | partial | exposition text; line grammar, reading it back | `Prom/PrintProps` |
| C109 | Lists and objects are read all or nothing, element by element | partial | universe of Go types and values; mutual structural induction | `Enc/ShapeProps` |
| C110 | A struct stored in an `any` has the keys it has in JSON | partial | universe of Go types and values; mutual structural induction | `Enc/ShapeProps` |
| C111 | Formats in documentation | partial | type graph with ids, component table, fuelled walk with enough-fuel proof; invariant on defined names | `Openapi/FormatProps` |
| C112 | A scraper reads what was recorded | proved | independent reader of the text format; read-back by induction | `Prom/ReadProps` |
| C113 | White space in JSON is immaterial | proved | texts with white space between tokens as a relation; parser correct on all of them | `Enc/SpaceProps` |
| C114 | JSON decoding accepts exactly JSON | proved | inductive grammar (RFC 8259) independent of the parser; soundness by induction on fuel, completeness by induction on derivations | `Enc/GrammarProps` |
| C115 | EqualsJSON compares documents | partial | strings read by the grammar of C114, other arguments as nodes; injectivity of the text on documents, negations for structs, errors and floats | `Test/JsonProps` |
| C116 | Every request is measured exactly once | partial | requests through both layers as lists of observations, counted per series through the histogram of C27; doubled and missing counts as negations | `Http/ServerProps` |
| C117 | The number of series is not chosen by clients | partial | n requests with n distinct keys by injectivity of label rendering (C26) | `Http/Methods`, `Http/ServerProps` |
| C118 | Registered paths keep their handler and documented paths are routed | partial | ServeMux as an association list; invariant over any registrations, with failures in the middle | `Http/ServerProps` |
| C119 | A test of an API shows what a call over http does | partial | client and server in one process as nodes; round trip without text (C40); object equality by fields; four negations by computation | `Api/TestProps` |
| C120 | UnhandledFields is told where the field is | partial | slices as (array, length) over a heap of arrays; invariant: the array holds the position up to its length; one kept path by computation | `Enc/PathsProps` |
| C121 | The path in an error tells the place | partial | texts are uniquely decodable: no name holds a separator; two places are told apart by induction | `Enc/PathsProps` |
| C122 | A factory's object is stored | partial | reflect as a table of which calls panic; induction over pointers | `Enc/Factory` |
| C123 | Numbers as durations | partial | wrap-around by BitVec; parse of formatted integers (C39); both evaluation orders | `Enc/DurationProps` |
| C124 | The default logger writes every record | partial | attributes as lists through ReplaceAttr; tags in any order (Lists); level variable as a fold over uses | `Ctx/SlogProps` |
| C125 | A sync.Map crosses the wire | partial | entries of the underlying map as a permutation (C16), typed round trip (C40), stores folded into a plain map | `Sync/MapEncProps` |
| C126 | Websocket messages arrive whole | partial | frames against RFC 6455 messages; induction over items; C39 for what is written | `Ws/Cut`, `Ws/TransportProps` |
| C127 | A graceful shutdown waits for clients, but not for ever | partial | step machine with the wait group as a counter; invariant: counter = holders; executions built for every n | `Http/Graceful` |
| C128 | What is written has the documented type | partial | two mutual recursions over types compared by mutual induction; Conforms as an inductive relation | `Openapi/WireProps` |
| C129 | Documented examples are values of their types | partial | example by kind of type; shapes of what is written by induction on types; typed round trip (C41) | `Openapi/ExamplesProps` |
| C130 | The example application keeps what it is given | partial | handler computed for every url parser; store as a fold over requests against the latest value asked for; map accesses as steps | `Example/Props`, `Example/Race` |
| C131 | A MetricsMutex excludes, and reports the right holder | partial | step machine over the statements; invariant: the mutex remembers the goroutine inside, every line is true | `Sync/Metrics` |
| C132 | Tags and logged errors are JSON | partial | tag values by case; the text of a report by induction on the JSON grammar (C114), compaction sound for it | `Ctx/TagJsonProps` |
| C133 | Concurrent websocket writers do not mix frames | partial | step machine with the bytes on the wire; invariant: they are whole frames and a prefix of the one under way; the header read back | `Ws/Writers` |
| C134 | A websocket's life on the server | partial | functions as statement lists with deferred calls on top of the executions of the loop (C60); the wire as a fold over what is done to it | `Ws/ServeProps` |
| C135 | Slices that are handed out are not changed by others | partial | slices as windows on a heap of arrays; slices without a common array do not see each other, by induction over later uses | `Lists/HeapProps` |
| C136 | Sort and SortFunc sort | partial | insertion sort by induction on the sorted part; longer slices by the contract of sort.Slice | `Lists/Sort` |
| C137 | Warnings about slow types | partial | step machine of reads and writes of the map; invariant over all interleavings | `Enc/Ineff` |
| C138 | Types with MarshalJSON and UnmarshalJSON come back | partial | types as records of their methods over the codec model (C39, C73, C114) | `Enc/Hooks` |
| C139 | Times survive their RFC 3339 text | partial | calendar fields, the RFC 3339 writer and parser of package time, then C41 | `Enc/Rfc3339`, `Enc/TimeRead` |
| C140 | Durations survive their text | proved | the writer and parser of durations of package time, then C41 | `Enc/DurRead`, `Enc/DurText` |
| C141 | null resets a variable to its zero value | partial | cases over the types of the typed layer | `Enc/NullProps` |
| C142 | The response of a Call is what its handler wrote | partial | Heap of arrays shared by the handler and the buffer; refinement to a response that is a value | `Http/CallBody` |
| C143 | A message that is cut short is not taken for another | partial | Prefixes of the texts of the JSON grammar; reading of connections that end within a frame | `Ws/Cut` |
| C144 | The log tells how a websocket ended | partial | Step machine of the reader and the loop with their log lines; invariants over all runs | `Ws/EndLog` |
| C145 | JSON values of the wrong kind are refused | partial | Enc/Refuse.lean: `refused` by induction over pointers and cases of types and kinds; `uEntries_key` by induction over the entries | `Enc/Refuse` |
| C146 | A websocket session is the session of its frames | partial | Composition of C126, C63, C60 and C61: texts that carry frames are handled as the frames (all ways to write them), hence every execution is a prefix of the sequential run | `Ws/Session` |
| C147 | The document served at /openapi.json describes what is registered | partial | per schema, path and service: a struct whose fields have names of their own is marshalled to pairs whose members are the fields that are kept; induction over schemas; invariant over registrations | `Openapi/ServedProps` |
| C148 | Objects registered for websockets | partial | UTF-8 is injective and self-synchronising, so a lowered name is a text or nothing; induction over methods and fields; composed with C61 to a session | `Ws/InspectProps` |
| C149 | Observing and scraping at the same time | partial | interleavings of goroutines as schedules; invariant over map, locks, cells and trace; a scrape equals a fold over the committed observations; permutation of the programs at the end | `Prom/ConcProps` |
| C150 | Calls of the websocket test client end | partial | state machine of client, reader and loop; invariant that the result of a waiting call is there or comes; a decreasing budget for the server; closed invariants for the violations | `Ws/TestLife` |
| C151 | Nobody waits for ever for a cache | partial | Goroutines as stacks of calls; the mutex a key needs is a parameter (one for all keys, or one per entry, which can be replaced). If keys are ranked and misses ask for lower ranks only, then nobody is stuck and only so many steps remain; a `Request` waits only for a fetch of the same key. | `Caches/Wait` |
| C152 | Map keys of every type | partial | keys of any comparable type and their methods; C152_key characterises the keys that come back; whole maps in any order of visits; float, uint, time, any and method keys violate it | `Enc/Keys` |
| C153 | Requests to one API keep to themselves | partial | explicit memory; handlers are arbitrary programs; invariant over all interleavings: every request is as if alone | `Api/Isolate` |
| C154 | Changing an ordered map while ranging over it | partial | Range with a callback that puts and deletes: arrays shared until append replaces one; Walk relation and the function spec; deleted entries visited after growth, slots never reused | `OMap/Reenter` |
| C155 | Contexts of tests | partial | testers with cleanup lists over the models of contexts and loggers; any steps of any tests; benchmark testers and redacted strings violate it | `Test/Contexts` |
| C156 | Keys that are not equal to themselves | partial | Go maps over a partial equivalence of keys; simulation of the LRU by the lawful model with fresh names; refinement of OrderedMap; counting what the index keeps | `Caches/Odd`, `OMap/Odd` |
| C157 | Configurations loaded from the same values are independent | partial | slices as headers into arrays; frame lemma for append; refinement to the loader on values; induction over the loads | `Config/Shared` |
| C158 | Contexts of the websocket test client | partial | step machine of outboxes; invariant over executions (FIFO, once); blocked forever by induction; keys of the server table; race steps | `Ws/TestCtx` |
| C159 | Concurrent use of the key-value store | partial | step machine of goroutines with stacks of calls; mutual exclusion and progress of Range as invariants; refinement to an abstract map by replaying the critical sections; every event lawful after its past; counterexample for edits during Range | `Storage/Conc` |
| C160 | Errors are recognised by errors.Is | partial | errors.Is with any target and Go interface equality that can panic; characterised by the nodes of the tree, by mutual induction; agreement with the targets of C18 and C19; counterexamples for http.NewErrorf and for two ctx errors | `Errors/Compare` |
| C161 | A test of a websocket object shows what a websocket does | partial | Ws/TestWire.lean: the test client and the websocket as two inputs of the same loop; executions that mirror each other; methods deaf to the form of the data | `Ws/TestWire` |
| C162 | Unmarshal writes its variable and nothing else | partial | Enc/Heap.lean: the code with a memory of cells; refinement to the value model, frame and separation in one mutual induction over types; footprints as sets of addresses | `Enc/HeapProps` |
| C163 | What the node made by Marshal shares | partial | Enc/HeapMarshal.lean: Marshal with a memory of cells; refinement, frame and footprint by mutual induction over types; composed with C162 | `Enc/HeapMarshal` |
| C164 | Caches used by several goroutines | partial | generic theory of objects with a mutex (Sync.Locked): bodies are sequences of accesses, goroutines are interleaved between them; invariant: while the mutex is free the memory is that of the sequential run of the calls in the order of releases; the code of LRU and container/heap access by access simulates the model; String as a computed execution | `Caches/Conc` |
| C165 | The client gives connections back | partial | calls with the acts answer, read, close; the acts of every method by cases; connections of the transport as a counter machine, induction over the calls | `Http/Bodies` |
| C166 | Every configurable value can be the default | partial | the parse of tags by splitting and cutting; options that do not mention default fail; defaults have no comma, so the list parse has one part | `Config/Defaults` |
| C167 | Types with a marshaller are documented by what they write | partial | Openapi/Marshallers.lean: the switch on the first byte by the kinds of nodes (JsonLemmas), the type a schema shows by induction over the shape of a type, with C54 | `Openapi/Marshallers` |
| C168 | The metric registry used by several goroutines | partial | Prom/Reg.lean: single map accesses under Sync.Locked.one_by_one, then induction over the calls in the order they release the mutex | `Prom/Reg` |
| C169 | The buffered pipe keeps what it was given | partial | TestIO/Shared.lean: slices as ranges of cells; refinement of a pipe of bytes, step by step, as long as no cell of the pipe is written | `TestIO/Shared` |
| C170 | Shared objects have no data races | partial | Executions as interleavings of accesses to memory, mutexes and channels; happens-before as in the Go memory model; a checker for lock discipline, proved sound; each method as the accesses it may make. | `Sync/RaceProps` |
| C171 | Shared objects do not deadlock | partial | The same executions; methods that lock one mutex at a time never wait in a circle. | `Sync/Deadlock` |
| C172 | The response wrapper lets handlers do what the writer of net/http does | partial | layers of wrappers above a buffering writer of net/http; lockstep of the wrapped and the direct run, invariants of the buffer | `Http/Wrapped` |
| C173 | An any gets what encoding/json would give it, wherever it stands, and Digits are numbers | partial | native values by mutual induction; the grammar of C114 for digits that hold documents, copied through every MarshalJSON method | `Enc/Native` |
| C174 | APIs are run by the requests they document | partial | Http/Methods.lean: requests with method, headers and body, Do with a state; what is taken, HEAD | `Http/Methods` |
| C175 | Websocket callers are told what went wrong | partial | reduction of a failing call to C61_call and of the frames to C63_arrives_partial; case analysis of the frames that end a connection | `Ws/Told` |
| C176 | Strings cross the wire byte for byte | partial | arithmetic on the bytes of a rune in both directions, induction over strings; induction over nodes into the grammar of C114 | `Enc/BytesJson`, `Enc/Utf8` |
| C177 | HTTP responses that are cut short are not taken for others | partial | The beginning of the bytes of a character decodes to U+FFFD only (prefix-freeness from decode after encode); then no JSON value ends with U+FFFD, so C143_prefix applies to what is left; the empty body by unfolding ReadFrom and Recv. | `Http/Cut` |
| C178 | Nil inside of nodes means the same everywhere | partial | Mutual induction over nodes with nil inside: text and native value are those of the node with nil filled in; the types by induction over types; lists and fields by induction, tied to the model of Unmarshal for nodes without nil. | `Enc/NilNodes` |
| C179 | A call that is redirected is the call, or it fails | partial | Induction over the chain of codes with what is left of the method and the body; the API at the end by C174; the limit by induction on the redirects left. | `Http/Redirect` |
| C180 | A client calls an API where the server registers it | partial | Model of net/url on bytes; escaping is undone by unescaping, parsed urls are written in one way that is read as the same; resolving and cleaning by induction over path elements. | `Http/Address`, `Http/Dots` |
| C181 | Unmarshalling again changes nothing, and documents can be laid over each other | partial | Induction over types: every call is a function of the old value that is idempotent, with a status and reports that do not depend on it. | `Enc/Again` |
| C182 | A program with another version of a type reads what both versions have | proved | Enc/Versions.lean: a relation between types (Version) and between the values a writer has and a reader sees (Seen), both by recursion over the types; induction over type and value of the writer, with the reader for all versions | `Enc/Versions` |
| C183 | Clients and servers of different releases understand each other | proved | Api/Skew.lean: C52 for two types, with Carried in place of equality; each field crosses the wire by C182 | `Api/Skew`, `Http/Skew` |
| C184 | Websocket channels keep to themselves | partial | Ws/Shared.lean: memory and programs of Api/Isolate.lean; two runs, one with and one without the other channels, stay alike for channel i, by induction over what happens | `Ws/Shared` |
| C185 | The tracking id of an error response tells the request | partial | Http/Requests.lean: request contexts as wrapping calls; induction on the chain, C56 and C23 | `Http/Requests` |
| C186 | Handlers are told when their request is over, and of no other | proved | Http/Requests.lean: request contexts as wrapping calls; history invariant of C22 | `Http/Requests` |
| C187 | What goes wrong is in the log | partial | Http/Logged.lean: log lines as a function of results and failing writes; case analysis, C56 | `Http/Logged` |
| C188 | Those who do not go on hold up only those who need them | partial | Sync/Stall.lean: goroutines as lists of instructions with calls out; who can be finished while others have stopped (waits_iff), and what is held in calls out | `Sync/Stall` |
| C189 | Websocket clients and objects of different releases understand each other | partial | Ws/Skew.lean: calls, Init and replies over websockets between releases, on top of Enc/Versions.lean and C148; unknown methods end the session | `Ws/Skew` |
| C190 | Fetches that panic do no harm to a cache | partial | Caches/Panics.lean: calls whose miss function panics are erased from histories, over Sync.Locked.one_by_one; the invariants of the request cache (RInv, RHist) are kept by a fetch that panics. | `Caches/Panics` |
| C191 | What a websocket client makes the server keep | partial | Ws/Kept.lean: the names kept after any frames are the names opened (step by step, sorted maps); nothing removes one | `Ws/Kept` |

## What is modelled

| Go | Lean |
|----|----|
| api/handler.go, api/data.go, api/json.go, api/tag.go, api/test.go, http/test.go | `Api/` |
| api/openapi | `Openapi/` |
| config | `Config/` |
| ctx (errors, tags, detach, span), ctx/log (context part, redaction, arguments, default logger) | `Ctx/`, `Errors/` |
| enc (all of it) | `Enc/`, `Pipe/` |
| example | `Example/` |
| http (server, mux, client, call, api, error, metrics, monitor, listen) | `Http/` |
| http/ws (conn, channel, handler, reflect, rpc, test) | `Ws/` |
| shutdown | `Shutdown/` |
| storage | `Storage/` |
| test/io.go | `TestIO/` |
| test (assertions, list, nil, empty, strings, equals, `EqualsJSON`, contexts) | `Test/` |
| utils/ast | `Ast/` |
| utils/caches | `Caches/` |
| utils/io.go, utils/errors.go, utils/stack.go | `Utils/`, `Errors/` |
| utils/lists, utils/maps | `Lists/` |
| utils/ordered_map.go | `OMap/` |
| utils/prom | `Prom/` |
| utils/sync | `Sync/` |

## What is not modelled

* `utils/memsql` (an empty sketch); how `test/ctx_linux.go` finds out whether the output is a terminal (a parameter).
* slog's JSON layout of a log line, its time stamp, output destination.
* net/http's transport and routing, gzip, x/net/websocket (its frame headers and write order are modelled in C133, its reading of frames in C126), the Prometheus scraper: external; see Parameters.
* `reflect` beyond kinds, fields, tags and method tables; `unsafe`; garbage collection; memory exhaustion.
* Goroutine scheduling is any interleaving of atomic steps. Which objects have data races is the subject of C170, where methods are the accesses they
  make; what a program with a race does (torn reads, the end of the program when a map is concerned) is not modelled. That the body of a method
  which holds a mutex may be taken for one step is a theorem (`Sync.Locked.one_by_one`), used for the caches in C164 and the metric registry in C168; elsewhere it is assumed.
  Unsynchronised accesses are listed below where they were found.
* Deadlock-freedom and liveness are proved only where a theorem says so (C171: caches, store, metrics; wake-ups, Listen, request cache).

## Disagreements and bugs found in the code

The `_violated` theorems prove these, unless marked (reading), which means found while reading and not proved.

### utils

1. `utils/caches/lru.go` `Get`: on HIT the access time is written to a copy of the heap entry, so the cache evicts in
   insertion order (FIFO), not LRU. C05. `String` takes no lock: logging a cache that is in use is a data race. C170.
2. `utils/caches/request.go`: two concurrent first callers may both fetch (one after the other). C08.
   `LRU` and `Mem` call the miss function with the cache locked: one that asks the cache stops the cache for good, and stored
   keys wait for others. Requests that ask for each other's key deadlock. C151.
3. `utils/io.go` `ReadAll`: bytes returned together with an error by `Read` are dropped. C17. Cancelled, it returns its buffer while the
   goroutine it started still writes to it: a data race. C170.
4. `utils/sync/map.go`: iterating panics on stored nil interfaces. C16. A map held by value is marshalled as `{}`; unknown fields
   inside are not reported. C125. `MetricsMutex.Unlock` logs after giving the lock back. C131.
   `utils/ordered_map.go`: `Range` visits entries its callback has deleted if the callback had made the array grow before; slots of
   deleted entries are never used again. C154.
   Keys not equal to themselves (NaN, also inside structs) are never found in `LRU`, `Mem` and `OrderedMap`; what is stored under them
   can not be removed, and the index of `LRU` grows without bound. C156.
5. `utils/prom/histogram.go`: a scrape between series creation and first observation panics. C28.
6. `utils/prom/labels.go`: `%q` escapes are not valid in the Prometheus text format (`\x01`, `é`, …). C66.
7. `utils/prom/http.go`: `WriteHeader(500)` after a failing `Write` has no effect, the scraper always sees 200. C107.
8. `utils/prom`: a newline in a metric's description injects lines. C108.
9. `utils/prom/counter.go`: `Print` has no name parameter, so `Counter` does not implement `Metric`, and it reads
   `sum` without the lock, a data race with `observe`. C149, C170. (the name: reading)
   The series of one scrape are of different moments. C149.
10. `utils/ast/call_args.go`: the variable of an ended `if x := …` is reported for a later `x`, and `x = f(x)` reports
    the call's own assignment. C97. An empty function literal among the arguments, a missing source file or a call that
    is not found make the assertion panic. C98.
11. `utils/stack.go`: a module whose name begins with this module's name is mapped next to this one; a comment holding the
    word `module` is taken for the module line. C100, C101.
    `utils/lists`: NaN is added to a `Set` again and again; with a NaN score `SortFunc` does not sort; results of `AddUnique` on one slice, and
    neighbouring chunks of `Split`, overwrite each other when appended to. C12, C135, C136.
- `LRU.String` (utils/caches/lru.go L100-107) reads the fields without taking the mutex: while another goroutine removes the last entry it panics with an index out of range, and while one stores an entry it shows more cached than the budget (C164).
- `prom.Register` does not notice that a name is taken by a nil metric; scraping it panics. C168.
- C188: `histogramTS.print` (utils/prom/histogram.go L74) writes to the connection of the scraper with the mutex of the series held, and the server has no write timeout: a scraper that stops reading holds up every request of that series. `LRU.Get` and `memCache.Get` fetch with the mutex of the cache held (the TODO at lru.go L73), and `Range` (storage/keyvalue.go L67) logs with that of the store held.
- C190: `RequestCache.Request` (utils/caches/request.go L37) stores an empty entry before it fetches, which may evict another one: requests whose fetch fails, panics or returns no time to live push out results that are still good.

### ctx, log

12. `ctx/detach.go`: `context.Cause` of a detached context still reports the parent's cause. C22.
13. `ctx/span.go`: `trackingCtx.Value` has a value receiver, so the span counter never advances; siblings share an id. C23.
14. `ctx/log/log.go`: `WithLogFunc`/`WithHelper` mutate the configuration shared with the parent context. C24.
15. `ctx/log/log.go` `FormatMsg` overwrites the caller's argument slice. C65.
16. Tags shadow values stored under plain string keys. C94. A tag called `level` makes the default logger panic, one called
    `msg` is renamed; `NewDefaultSlogLogger` sets the level of all default loggers back to debug. C124.
    Raw messages given as tags are not checked; one that is no JSON in the context of a logged error makes the log silent about all
    errors of that record; a user's tag called `error` is replaced. C132.
- ctx/error.go L41-48: `Error.Is` says yes to every `ctx.Error`, so that `maybeWrap` can ask for one. With it `errors.Is(a, b)` is true for any two errors made by `ctx.NewErrorf`: they can not serve as sentinels (`C160_ctx_violated`).

### shutdown

17. The `Done` channel may close while a newer hold is outstanding. C32.
18. Taking a hold while the counter reaches zero may panic (`WaitGroup` reuse). C67.

### storage, config

19. Equality filters on compound values compare a rendering; records are shared with the caller. C68, C69.
20. `config` panics on named bool/int types, named map keys and unexported tagged fields. C70. Defaults can not
    contain commas, so lists and maps have at most one element by default; a string with a default can not be configured to be empty. C166.
- `config/config.go` L120: list values are appended to the slice of the given struct; with spare capacity two configurations loaded from the same values
  overwrite each other's elements, also when the second load fails. C157.
- storage/keyvalue.go L63, L98-102: `Range` checks records while it holds the store's mutex, but records are maps shared with whoever stored or got them, and edits take no lock. A `Range` during an edit can return a set of records that matched at no moment (`C159_moment_violated`); in Go it is also a data race on the map.

### enc

21. A `json:"-"` field is set by input key `""`. C43.
22. Integers (values and map keys) are truncated silently; `1.5e3` reads as 1, `1e3` is an error; uint64 ≥ 2^63 can not
    be read back. C45, C46.
23. Nesting over 10000 can be encoded but not decoded; `Decode` ignores trailing data. C71, C72.
24. `Marshal` panics on nil `*time.Time`, `*enc.Time`, `*enc.Duration`; a `Pairs` node with a member that can not be
    encoded panics. C74.
25. Non-empty interface fields, and a `Duration` node into int, float or string, make `Unmarshal` panic. C75.
26. `map[int]T` with keys that collide after truncation depends on map iteration order. C76.
27. Integers in `any` become floats over the wire; structs in `any` are keyed by Go field names. C77, C110.
28. A failed `Unmarshal` has already replaced pointers and set earlier struct fields. C109.
29. `Digits` holding a JSON document is written as that document; `Digits` 1e999 into `any` becomes a string; `Time`/`Duration` into
    `any` differs between top level and nested. C173. A kept path of `UnhandledFields` becomes that of another field. C120.
    Paths of map values show `#val` for every key; `Parent` drops two elements, or panics. C121. A `Factory` that makes an
    object always panics. C122. `Duration` wraps around silently and panics on large decoded numbers; `AsTime` and
    `AsDuration` depend on the evaluation order of a return statement. C123.
    `warnIneff` writes a package map without a lock on first use of a type: concurrent `Unmarshal` can end the program. C137.
    `MarshalJSON` on the value panics for nil pointers; on the pointer it is ignored for values; `UnmarshalJSON` sees members sorted, and nothing if the
    node can not be encoded; a `json.RawMessage` holding two values loses the second, an empty one becomes a nil node. C138.
    Zones with seconds shift the instant of a time, years outside 0-9999 are written but not read. C139. `enc.Time` refuses null;
    null clears fields tagged `json:"-"`. C141. A pointer loses its target when its value is refused; interfaces with methods panic. C145.
    Maps with float keys, or unsigned keys from 2^63 on, are written but not read; maps with time keys are read but not written; 1 and "1" in a
    `map[any]` become one member; key types with methods are written by them but read without them. C152.
- `Unmarshal` into an `enc.Node` stores the node itself: lists and maps below it are shared between the source and every struct made of it, so an edit of one is seen in all. C162.
- `Marshal` returns an `enc.List` itself, where maps and pairs are copied: the node changes with the list, and in tests that pass nodes on (`api` and websocket test clients) client and server share it. C163.
- json.go L49-64: strings that are not UTF-8 are written with U+FFFD in place of the invalid bytes, without an error; two keys of a map that differ in such bytes only are written twice and read as one (C176).
- A nil `enc.Node` inside a `List`, `Map` or `Pairs` is `null` for `Encode`, but `Unmarshal` panics on it for nearly all types (a method of a nil interface, enc/handler.go L158, enc/list.go L18); `Marshal` leaves it in lists. A nil `enc.List` is `null` in JSON and `[]` in memory. C178.
- Unmarshalling into a pointer makes a fresh variable even if the pointer is set, so a field behind a pointer that the document does not mention is reset, while the same field of a struct in a struct is kept (enc/handler.go L60-73; `C181_pointer_violated`).

### api, openapi

30. Template fields are live references shared by every request (C153); unexported set template fields make every `Recv`
    panic. C78.
31. `auth,in` struct fields merge the body into the identity; without `required` the body chooses the identity. C50.
32. A reused client object keeps stale `omitempty` outputs. C52.
33. `type T []T` recurses forever; a nested unsupported type panics (nil schema in deferred function). C54, C55.
34. Schema keys of types of different packages can collide when names hold an underscore. C86. Unexported and `json:"-"` fields are documented. C87.
35. The format of a definition depends on which type was seen first. C111.
36. Example "NaN" panics, examples that are zero are not shown, those of large unsigned numbers are strings. C129. The document says of every API that the body is optional. C147.
    `[]byte` is documented as a string but written as an array and refused as a string; null is not documented. C128.
    A type with a marshaller that writes its zero value as a negative number makes `SchemaFromType` panic; one that writes lists, null for its zero value, or has the method on the pointer is documented
    by its kind. C167. `Components.Schemas` is unsynchronised. C170.

### http

37. An informational code written first ends as 200, and the metric is wrong; a handler writing nothing is measured as
    code 0. C58.
38. Errors with a 1xx code are answered 200 with the error as body; codes outside 100–999 panic; errors with code 200 or
    204 look like success. C56, C59, C79.
39. A malformed body is answered 500. C81. UID is never set, so required authentication is always refused. C82.
40. `Client.API` panics without a `url` tag. C84. An error in the middle of reading the response leaves a
    partly filled object. C59.
41. `Listen` hangs if `Shutdown` precedes `Serve`. C85. Its hold ends when `Shutdown` is called, so the program ends while
    requests are being answered; idle websockets keep it from ending. C127.
42. Requests for a path registered with `Handle` are counted twice in `http_request`, those whose handler panics not at all. C116.
    Clients make as many series as they like. C117. `RegisterAPI` panics instead of returning an error when a url is taken, and leaves
    urls registered after an error. C118. The client neither reads nor closes the body of a response other than 200 and 204: each costs a connection. C165. `SetupPrometheus`/`SetupMonitoring` routes bypass `Handle`, so they are not documented and measured once only. C116, C118.
    `Call.SetBody` keeps the slice of the handler: a later `Write` overwrites what lies behind it in the same array, later changes of the slice
    show in the response; `MaxLength` is ignored; the handler has no way to see the request, whose fields are private. C142.
- http/error.go L11-21: `http.NewErrorf` puts a `ctx.Error`, which has a slice and no `==`, into the interface field of a comparable struct. `errors.Is(err, err)`, `err == err` and use as a map key panic (`C160_http_violated`).
- http/server.go L154-181, http/api.go: registering writes the maps of the openapi document without a lock; while `/openapi.json` is served that is a data race (on maps: the end of the program). C170.
- `response` (mux.go L48) has neither `Flush` nor `Unwrap`: handlers cannot stream (server-sent events, long polls); nothing is sent before they end unless the buffer of net/http overflows. A hijacked connection (every websocket) is measured with the code 0. C172.
- Request handlers and APIs look at neither the method nor the content type, while the document names POST and application/json only: GET, DELETE and HEAD run `Do`, a form of any page can be posted to an API, and a link runs an API without required inputs (C174). The method is also a label of `http_request`, so clients can make series without asking for new paths (C117).
- `Client.API` takes an empty body of a response with code 200 for an empty object (api/json.go L36-39): a response whose connection ends right after the headers is a success with the outputs unchanged (C177_empty_violated, C177_call_violated). Any other cut is noticed (C177_cut_partial).
- C179: the client follows redirects with 301, 302 and 303 as a GET without body (the default of `net/http`), and servers of the framework take that for a call without inputs: a call through a proxy that leads from http to https runs on zero values and reports success.
- C180: the path of `Client.BaseUrl` is ignored (urls of APIs are absolute paths), a server behind a prefix can not be called; urls with dots are registered as they are and called without them; urls with dots or an empty element (`/a//b`) are registered and can never be reached, and calling them is redirected with 301 to another path as a GET without inputs.
- C185: no tracking id is made for a request (`http/server.go` L46-48, L206): every request of a server has that of the context given to `Listen`, or an empty one, so that the `tracking` of an error response, which is all that a client is told of an internal error, does not tell which request failed. Websocket connections share one id if that context has one (`Span`, see C23). The warning about a second `WriteHeader` (`http/mux.go` L62) is logged with a nil context, so without the tags of the request. C185.
- C187: errors of `Call` handlers are neither logged nor sent (`http/call.go` L48-51). The error of `gzip.Writer.Close` (`http/server.go` L237), which writes the rest of a long response, is dropped, as are those of writing an error response (L215, L221). The errors of methods and `Init` over a websocket are not logged (`http/ws/channel.go` L47, a commented line; `http/ws/handler.go` L126-130 at debug level).

### http/ws

43. An `Init` error is returned as `any` and dropped; the channel stays registered. C62.
44. Frame data `null` or `""` is dropped. C63.
45. The reader goroutine leaks after a handler error, if `Loop` is used without `Server`, which cancels the context (C134); a ping/pong frame panics in it, which nothing recovers. C90.
46. A close frame closes the whole connection, the README says the channel. C91.
    `Register` of a struct panics, though the error message asks for "struct or *struct"; so do nil pointers. An object with a set unexported field can be registered, and every open of a channel panics.
    Fields that were zero at registration stay zero, others follow the object. Methods not ending in an error and variadic ones end the connection when called; names that start with a non-ASCII letter
    become invalid UTF-8; `Foo` and `foo` replace each other. C148.
    Fragmented messages are cut, pings and pongs end the program. C126.
47. A panic in `Init` sends no disconnect frame. C92. The test client may return the previous call's error. C93.
    Its calls hang if the method does not exist or panics, after `Close`, and in the callback; `Close` does not end the loop. C150.
48. `Close` sends two close frames; a peer refused by `OnConnect` gets none; the handshake refuses requests without `Origin`, its comment says
    it accepts any; an `OnConnect` that returns no context and no error panics (C134), in the goroutine that reads too (reading). The write mutex is not held by
    `WriteClose`, so the close frame may land in the middle of a message. C133.
    If a connection ends within a frame, what has come of its payload is taken for a message: nothing for a nil node, the first digits of a number for the
    number. C143. Every end of a connection is logged as a warning, a close frame as two of them, since the wrapped `io.EOF` is compared by value. C144.
- `http/ws/test.go` L141-159: `NewContext` does not open its channel at the server; a reply that waits for room is not ended by `Close`; `byChan` is written
  without a lock while the server's loop reads it. C158.
- `http/ws/test.go` L29-57: the test client passes frames as nodes. `Marshal` of the frame sends its data through JSON unless it is a list, a string or a bool, so `[]any{0}` is a list of integers in a test and of floats over a websocket (C161_int_violated); NaN in a list passes the test and can not be sent (C161_float_violated), in a struct it panics in the reading goroutine and ends the test program (C161_crash_violated).
- `http/ws/test.go` L52-55: the disconnect frame has no channel, so the test client refuses it: a test never sees why the connection ended (C161_disconnect_violated).
- reflect.go L46-51, conn.go L61-64: what a websocket client is told about an error depends on its type. `errors.New`, `fmt.Errorf`, `errors.Join`, and `ctx.NewErrorf` with a `%w` of an error of `ctx` (every unreadable argument, reflect.go L78) arrive as `{}`; an error type of the program is sent with all its exported fields; one with a function in it ends the connection (C175). The text of internal errors, which http keeps to itself, is sent in the `error` frame.
- reflect.go L22-28, L118-128: the fields of the registered object are copied as they are, so what its pointers, maps and slices lead to is shared by all channels of all connections: what one client sends can be seen by another one, and updates made at the same time can be lost (C184_seen_violated, C184_lost_violated).
- C189: `Channel.onData` (channel.go L30) and `onFrame` (rpc.go L49) return an error for a method or object that is not known, and the loop then ends the connection: a newer client loses all its channels on an older server.
- C191: a channel is kept until its connection ends: `Channel.Close` (channel.go L19-26) is never called and can not be reached, a close frame closes the whole connection, and a channel whose `Init` failed stays stored (handler.go L127 stores it before `build`). Clients choose how many there are.

### test

49. `test/io.go`: `Close` does not wake a blocked reader, two readers can starve each other, `Closed` is never set. C89.
50. Quoted values show a newline as `\v`. C103. `Empty` panics on numbers, booleans, arrays and functions, `Nil` fails on a
    nil function, `NoError` accepts a typed nil. C104. 
    `EqualsJSON` fails for a struct and the text it marshals to when fields are not in key order; it passes for two values that
    fail to marshal with the same message, for `1e999` and `null`, and for numbers with the same `float64`. C115.
51. `api.Test` and `http.TestAPI` pass where the call over http fails or differs: required identities, fields of the tested object that are neither
    input nor output, integers in `any`, floats without JSON text. C119.
    JSON assertions panic on a context with the tester of a benchmark or fuzz test; on a terminal the logger of test contexts writes
    redacted strings in clear. C155.
- `BufferedRWC` keeps the slices given to `Append` and `Write` (`io.Writer` forbids it), and `Read` with an empty buffer that has capacity waits. C169.

### example

52. `example/example.go`: `Get` has an `api` tag with unknown words, so it is never registered, and would refuse every request for want of an
    identity; the store's lock is never taken. C130.
- example/example.go: `Store` has a mutex, which `Get` and `Set` do not use: two requests race on its map. C170.

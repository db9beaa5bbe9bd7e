import Verif.Sync.Race

/-!
# Which objects of this repository can be used by several goroutines

For every type that is meant for several goroutines, which memory its methods touch, in which order, and under which mutex (`Code`: whatever the values are;
loops may turn any number of times, branches may go either way). Places are fields; a map, slice or heap is one place with all it holds. `Range` and `Print`
go through the series, entries or records one by one: here these are calls of their own, so that a goroutine may also stop anywhere between them.
Types of the standard library that are safe for concurrent use (`sync.Map`, `atomic`, `http.ServeMux`, `slog.LevelVar`) are `atomic` places.
-/
set_option autoImplicit false
namespace Verif.Sync.Race

variable {L K : Type}

abbrev rd (x : L) : Code L K := .i (.read x)
abbrev wr (x : L) : Code L K := .i (.write x)
abbrev atm (x : L) : Code L K := .i (.atomic x)

/-- One after the other. -/
def block : List (Code L K) → Code L K
  | [] => .nil
  | c :: l => .seq c (block l)

/-- Perhaps. -/
abbrev opt (c : Code L K) : Code L K := .alt .nil c

/-! ### caches/lru.go -/

inductive LruLoc where
  | list | index | curSize | maxSize | onMiss
  deriving DecidableEq

/-- caches/lru.go L117-147: `Len`, `Less`, `Swap`, `Push` and `Pop`, as `container/heap` calls them. -/
def heapOps (K : Type) : Code LruLoc K :=
  .many (.alt (rd .list) (.alt (block [rd .list, wr .list, rd .list, wr .index]) (.alt (block [rd .list, wr .index, wr .list]) (block [rd .list, wr .list, wr .index]))))

/-- caches/lru.go L34-43 -/
def lruKeys {K : Type} (k : K) : Code LruLoc K := .within k (.many (rd .list))

/-- caches/lru.go L45-59 -/
def lruInvalidate {K : Type} (k : K) : Code LruLoc K := .within k (block [rd .index, opt (block [wr .list, heapOps K, wr .index, rd .curSize, wr .curSize])])

/-- caches/lru.go L61-98: what `OnMiss` does to other memory is not shown. -/
def lruGet {K : Type} (k : K) : Code LruLoc K := .within k (block [rd .index, .alt (block [rd .list, heapOps K])
  (block [rd .onMiss, opt (block [heapOps K, rd .curSize, wr .curSize, .many (block [rd .curSize, rd .maxSize, heapOps K, wr .curSize]), rd .curSize, rd .maxSize])])])

/-- caches/lru.go L100-107: no mutex. -/
def lruString {K : Type} : Code LruLoc K := block [rd .list, .alt (block [rd .curSize, rd .maxSize]) (block [rd .curSize, rd .maxSize, rd .list])]

def lruGuard {K : Type} (k : K) : LruLoc → Guard K
  | .list | .index | .curSize => .by k
  | .maxSize | .onMiss => .fixed

/-- The methods of `LRU`. -/
def lru (c : Code LruLoc Unit) : Prop := c ∈ [lruKeys (), lruInvalidate (), lruGet (), lruString]

/-- Those of the interface `Cache`, which is what `NewLRU` returns, and `Keys`. -/
def lruCache (c : Code LruLoc Unit) : Prop := c ∈ [lruKeys (), lruInvalidate (), lruGet ()]

/-! ### caches/mem.go -/

inductive MemLoc where
  | m | miss
  deriving DecidableEq

/-- caches/mem.go L22-26, L28-42 -/
def mem (c : Code MemLoc Unit) : Prop := c ∈ [.within () (wr .m), .within () (block [rd .m, opt (block [rd .miss, opt (wr .m)])])]

def memGuard : MemLoc → Guard Unit
  | .m => .by ()
  | .miss => .fixed

/-! ### caches/request.go -/

inductive ReqLoc where
  | lru (x : LruLoc) | onMiss
  /-- the fields of an entry -/
  | val (e : Nat) | expire (e : Nat) | err (e : Nat)
  deriving DecidableEq

/-- The mutex of the cache, and those of the entries. -/
inductive ReqLock where
  | l | entry (e : Nat)
  deriving DecidableEq

/-- The same accesses, to another memory. -/
def Instr.map {L' : Type} (f : L → L') : Instr L K → Instr L' K
  | .read x => .read (f x)
  | .write x => .write (f x)
  | .atomic x => .atomic (f x)
  | .lock k => .lock k
  | .unlock k => .unlock k
  | .send c => .send c
  | .recv c => .recv c

def Code.map {L' : Type} (f : L → L') : Code L K → Code L' K
  | .nil => .nil
  | .i a => .i (a.map f)
  | .seq a b => .seq (a.map f) (b.map f)
  | .alt a b => .alt (a.map f) (b.map f)
  | .many a => .many (a.map f)
  | .within k a => .within k (a.map f)

/-- caches/request.go L35-71: the cache gives some entry `e`. -/
def request (e : Nat) : Code ReqLoc ReqLock := .seq ((lruGet .l).map .lru) (opt (.within (.entry e) (.seq (rd (.expire e)) (.alt (block [rd (.err e), rd (.val e), rd (.err e)])
  (.seq (rd .onMiss) (.alt (block [wr (.err e), wr (.val e), wr (.expire e)]) (wr (.expire e))))))))

/-- caches/request.go L31-33, and `request` -/
def requests (c : Code ReqLoc ReqLock) : Prop := c = (lruInvalidate .l).map .lru ∨ ∃ e, c = request e

def reqGuard : ReqLoc → Guard ReqLock
  | .lru x => lruGuard .l x
  | .onMiss => .fixed
  | .val e | .expire e | .err e => .by (.entry e)

/-! ### storage/keyvalue.go -/

inductive KvLoc where
  | data
  /-- a record, which is a map -/
  | record (r : Nat)
  deriving DecidableEq

/-- storage/keyvalue.go L32-80: `Get`, `Upsert`, `Delete`, and `Range` up to the callbacks; filters look into records (L82-110), here into record `r`. -/
def kv (c : Code KvLoc Unit) : Prop := c ∈ [.within () (rd .data), .within () (wr .data)] ∨ ∃ r, c = .within () (.many (block [rd .data, opt (rd (.record r))]))

/-- What those who stored a record, or got it, do with it: read and edit. -/
def kvUse (c : Code KvLoc Unit) : Prop := kv c ∨ ∃ r, c = rd (.record r) ∨ c = wr (.record r)

def kvGuard : KvLoc → Guard Unit
  | .data => .by ()
  | .record _ => .fixed

/-! ### utils/prom -/

inductive PromLoc where
  /-- the map of the registry -/
  | metrics
  /-- the `sync.Map` of a metric, and its settings -/
  | val | conf
  /-- the fields of a series -/
  | sum (s : Nat) | count (s : Nat) | buckets (s : Nat) | gauge (s : Nat)
  deriving DecidableEq

inductive PromLock where
  | registry | series (s : Nat)
  deriving DecidableEq

/-- utils/prom/metric.go L20-29, L31-46 -/
def registry (c : Code PromLoc PromLock) : Prop :=
  c ∈ [.within .registry (block [rd .metrics, opt (wr .metrics)]), block [.i (.lock .registry), .many (rd .metrics), .i (.unlock .registry)]]

/-- utils/prom/histogram.go L29-38, L39-54 -/
def observe (s : Nat) : Code PromLoc PromLock := block [rd .conf, atm .val, .within (.series s) (block [rd (.count s), wr (.count s), rd (.sum s), wr (.sum s),
  .many (block [rd (.buckets s), wr (.buckets s)]), .many (block [rd .conf, opt (block [rd (.buckets s), wr (.buckets s)])])])]

/-- utils/prom/histogram.go L56-70, L74-124: one series. -/
def histPrint (s : Nat) : Code PromLoc PromLock := block [atm .val, rd .conf,
  .within (.series s) (block [.many (block [rd .conf, rd (.buckets s)]), rd (.count s), rd (.sum s), rd (.count s)])]

def histogram (c : Code PromLoc PromLock) : Prop := ∃ s, c = observe s ∨ c = histPrint s

/-- utils/prom/counter.go L24-33 -/
def count (s : Nat) : Code PromLoc PromLock := block [rd .conf, atm .val, .within (.series s) (block [rd (.sum s), wr (.sum s)])]

/-- utils/prom/counter.go L35-63: one series; no mutex. -/
def countPrint (s : Nat) : Code PromLoc PromLock := block [atm .val, rd .conf, rd (.sum s)]

def counter (c : Code PromLoc PromLock) : Prop := ∃ s, c = count s ∨ c = countPrint s

/-- utils/prom/gauge.go L28-93: `Counter`, `Inc`, `Dec`, `SetFunc`, and `Print` of one series. -/
def gauges (c : Code PromLoc PromLock) : Prop := c = block [rd .conf, atm .val] ∨ ∃ s, c = atm (.gauge s) ∨ c = block [atm .val, rd .conf, atm (.gauge s)]

def promGuard : PromLoc → Guard PromLock
  | .metrics => .by .registry
  | .val => .atomic
  | .conf => .fixed
  | .sum s | .count s | .buckets s => .by (.series s)
  | .gauge _ => .atomic

/-! ### test/io.go -/

inductive RwcLoc where
  | readClosed | toRead | written
  /-- the bytes handed to `Append` or `Write` -/
  | bytes
  deriving DecidableEq

/-- test/io.go L28-105: `Append`, `IsReadClosed`, `SetReadClosed`, `HasRead`, `Write`, `Close`, and `Read`, whose `Wait` unlocks the mutex and locks it again. -/
def rwc (c : Code RwcLoc Unit) : Prop := c ∈ [
  .within () (block [rd .readClosed, opt (block [rd .toRead, wr .toRead])]),
  .within () (rd .readClosed),
  .within () (wr .readClosed),
  .within () (rd .toRead),
  opt (.within () (block [rd .readClosed, opt (block [rd .written, wr .written])])),
  .within () (block [rd .readClosed, opt (wr .readClosed)]),
  block [.i (.lock ()),
    .alt (block [rd .toRead, opt (rd .readClosed)])
      (block [.many (block [rd .toRead, rd .readClosed, .i (.unlock ()), .i (.lock ())]), rd .toRead,
        .alt (block [rd .bytes, rd .toRead, .alt (block [rd .toRead, wr .toRead]) (wr .toRead)]) (rd .readClosed)]),
    .i (.unlock ())]]

/-- Who handed over a slice uses it again. -/
def rwcReuse (c : Code RwcLoc Unit) : Prop := rwc c ∨ c = wr .bytes

def rwcGuard : RwcLoc → Guard Unit
  | .bytes => .fixed
  | _ => .by ()

/-! ### utils/sync/mutex.go -/

inductive MmLoc where
  | lock | holder
  /-- what the mutex is for -/
  | data
  deriving DecidableEq

/-- utils/sync/mutex.go L22-39: `Lock`, something, `Unlock`. -/
def metricsMutex (c : Code MmLoc Unit) : Prop :=
  c = block [.i (.lock ()), wr .lock, wr .holder, rd .lock, .many (.alt (rd .data) (wr .data)), rd .lock, rd .holder, .i (.unlock ())]

/-! ### http/server.go -/

inductive SrvLoc where
  | ready | mux
  /-- the maps of the document: `Paths`, and `Components.Schemas` -/
  | paths | schemas
  deriving DecidableEq

/-- http/server.go L34-37, L71-73 and L75-88 (`SetReady`, `/ready`, `/openapi.json`): what happens while a server serves. -/
def serving (c : Code SrvLoc Unit) : Prop := c ∈ [atm .ready, block [atm .mux, atm .ready], block [atm .mux, .many (rd .paths), .many (rd .schemas)]]

/-- http/server.go L154-181, http/api.go L13-62: `HandleRequest` and `RegisterAPI`, which also describe what they register. -/
def registering (c : Code SrvLoc Unit) : Prop := serving c ∨ c ∈ [block [atm .mux, wr .paths], block [.many (atm .mux), .many (block [rd .schemas, wr .schemas]), .many (wr .paths)]]

def srvGuard : SrvLoc → Guard Unit
  | .ready | .mux => .atomic
  | .paths | .schemas => .fixed

/-! ### http/ws/ws.go -/

/-- The mutex of `wsImpl`, and the one `x/net/websocket` has for `WriteClose`. -/
inductive WsLock where
  | m | wio
  deriving DecidableEq

/-- http/ws/ws.go L39-45, L48-61: the place is the `bufio.Writer` of the connection. -/
def wsWrite : Code Unit WsLock := .within .m (.many (.alt (rd ()) (wr ())))

/-- http/ws/ws.go L126-132: `WriteClose` holds its own mutex. -/
def wsClose : Code Unit WsLock := .within .wio (.many (.alt (rd ()) (wr ())))

/-! ### enc/handler.go, example/example.go -/

/-- enc/handler.go L162-168: the place is the map `ineff`. -/
def warnIneff (c : Code Unit Unit) : Prop := c = block [rd (), opt (wr ())]

/-- example/example.go L32-35, L47-51: `Get` and `Set`; the place is `Store.Data`. The store has a mutex, which nothing uses. -/
def exampleStore (c : Code Unit Unit) : Prop := c ∈ [rd (), block [rd (), wr ()]]

/-! ### C170 -/

/-- C170: the caches (also the one for requests), the store, the registry, histograms and gauges, the buffered pipe and the mutex that measures can be used by any
number of goroutines, calling any methods in any interleaving: no execution has a data race. For the cache this is without `String`, for the store as long as
nobody edits a record, for the pipe as long as nobody uses a slice again; for the rest, all methods. -/
theorem C170_free_partial («at» : Bool) :
    (∀ tr, Exec lruCache tr → ¬ Race «at» tr) ∧ (∀ tr, Exec mem tr → ¬ Race «at» tr) ∧ (∀ tr, Exec requests tr → ¬ Race «at» tr) ∧ (∀ tr, Exec kv tr → ¬ Race «at» tr) ∧
    (∀ tr, Exec registry tr → ¬ Race «at» tr) ∧ (∀ tr, Exec histogram tr → ¬ Race «at» tr) ∧ (∀ tr, Exec gauges tr → ¬ Race «at» tr) ∧
    (∀ tr, Exec rwc tr → ¬ Race «at» tr) ∧ (∀ tr, Exec metricsMutex tr → ¬ Race «at» tr) := by
  refine ⟨?_, ?_, ?_, ?_, ?_, ?_, ?_, ?_, ?_⟩ <;> intro tr ht
  · refine no_race (lruGuard ()) _ ?_ ht _
    intro c hc
    simp only [lruCache, List.mem_cons, List.not_mem_nil, or_false] at hc
    rcases hc with rfl | rfl | rfl <;> decide
  · refine no_race memGuard _ ?_ ht _
    intro c hc
    simp only [mem, List.mem_cons, List.not_mem_nil, or_false] at hc
    rcases hc with rfl | rfl <;> decide
  · refine no_race reqGuard _ ?_ ht _
    rintro c (rfl | ⟨e, rfl⟩)
    · decide
    · simp [request, opt, rd, wr, block, lruGet, heapOps, Code.map, Instr.map, check, ok, next, reqGuard, lruGuard, Code.plain]
  · refine no_race kvGuard _ ?_ ht _
    rintro c (hc | ⟨r, rfl⟩)
    · simp only [List.mem_cons, List.not_mem_nil, or_false] at hc
      rcases hc with rfl | rfl <;> decide
    · simp [opt, rd, block, check, ok, next, kvGuard, Code.plain]
  · refine no_race promGuard _ ?_ ht _
    intro c hc
    simp only [registry, List.mem_cons, List.not_mem_nil, or_false] at hc
    rcases hc with rfl | rfl <;> decide
  · refine no_race promGuard _ ?_ ht _
    rintro c ⟨s, rfl | rfl⟩ <;> simp [observe, histPrint, opt, rd, wr, atm, block, check, ok, next, promGuard, Code.plain]
  · refine no_race promGuard _ ?_ ht _
    rintro c (rfl | ⟨s, rfl | rfl⟩) <;> simp [rd, atm, block, check, ok, next, promGuard]
  · refine no_race rwcGuard _ ?_ ht _
    intro c hc
    simp only [rwc, List.mem_cons, List.not_mem_nil, or_false] at hc
    rcases hc with rfl | rfl | rfl | rfl | rfl | rfl | rfl <;> decide
  · refine no_race (fun _ => .by ()) _ ?_ ht _
    rintro c rfl
    decide

/-- C170: a server that serves and registers nothing, senders on a websocket that nobody closes, and a counter nobody prints have no race either. -/
theorem C170_rest_partial («at» : Bool) :
    (∀ tr, Exec serving tr → ¬ Race «at» tr) ∧ (∀ tr, Exec (· = wsWrite) tr → ¬ Race «at» tr) ∧ (∀ tr, Exec (fun c => ∃ s, c = count s) tr → ¬ Race «at» tr) := by
  refine ⟨?_, ?_, ?_⟩ <;> intro tr ht
  · refine no_race srvGuard _ ?_ ht _
    intro c hc
    simp only [serving, List.mem_cons, List.not_mem_nil, or_false] at hc
    rcases hc with rfl | rfl | rfl <;> decide
  · refine no_race (fun _ => .by .m) _ ?_ ht _
    rintro c rfl
    decide
  · refine no_race promGuard _ ?_ ht _
    rintro c ⟨s, rfl⟩
    simp [count, rd, wr, atm, block, check, ok, next, promGuard, Code.plain]

/-! ### races -/

/-- Is it an execution? -/
def validFrom [DecidableEq L] [DecidableEq K] : Trace L K → Trace L K → Bool
  | _, [] => true
  | tr, e :: l => (match e.2 with
    | .lock k => decide (owners tr k = none)
    | .unlock k => decide (owners tr k ≠ none)
    | .recv ch => tr.any (fun e => decide (e.2 = .send ch))
    | _ => true) && validFrom (tr ++ [e]) l

theorem validFrom_ok [DecidableEq L] [DecidableEq K] (l : Trace L K) : ∀ tr, Valid tr → validFrom tr l = true → Valid (tr ++ l) := by
  induction l with
  | nil => intro tr h _; simpa using h
  | cons e l ih =>
    intro tr h hc
    simp only [validFrom, Bool.and_eq_true] at hc
    have : Valid (tr ++ [e]) := by
      refine .snoc h ?_
      obtain ⟨g, a⟩ := e
      cases a with
      | lock k => simpa [allowed] using hc.1
      | unlock k => simpa [allowed] using hc.1
      | recv ch =>
        have := hc.1
        simp only [List.any_eq_true, decide_eq_true_eq] at this
        obtain ⟨x, hx, he⟩ := this
        exact ⟨x.1, by rw [← he]; exact hx⟩
      | _ => trivial
    simpa using ih _ this hc.2

/-- An execution of two goroutines, which are in one call each. -/
theorem exec2 [DecidableEq L] [DecidableEq K] (M : Code L K → Prop) (tr : Trace L K) (c0 c1 : Code L K) (r0 r1 : List (Instr L K)) (h0 : M c0) (h1 : M c1) (hr0 : Runs c0 r0) (hr1 : Runs c1 r1)
    (hv : validFrom [] tr = true) (hp0 : proj 0 tr <+: r0) (hp1 : proj 1 tr <+: r1) (hall : ∀ e ∈ tr, e.1 = 0 ∨ e.1 = 1) : Exec M tr := by
  have one : ∀ {c r}, M c → Runs c r → Calls M r := fun hm hr => by simpa using Calls.call hm hr Calls.nil
  refine ⟨by simpa using validFrom_ok tr [] .nil hv, fun g => ?_⟩
  by_cases hg0 : g = 0
  · subst hg0; exact ⟨r0, one h0 hr0, hp0⟩
  · by_cases hg1 : g = 1
    · subst hg1; exact ⟨r1, one h1 hr1, hp1⟩
    · refine ⟨[], .nil, ?_⟩
      have : proj g tr = [] := by
        unfold proj
        rw [List.map_eq_nil_iff, List.filter_eq_nil_iff]
        intro e he
        simp only [beq_iff_eq]
        rcases hall e he with h | h <;> rw [h] <;> omega
      rw [this]; exact List.nil_prefix

/-- Runs of a body, step by step. -/
theorem runs_block_cons {c : Code L K} {l : List (Code L K)} {r s : List (Instr L K)} (h : Runs c r) (h' : Runs (block l) s) : Runs (block (c :: l)) (r ++ s) := .seq h h'

theorem runs_many (c : Code L K) (r : List (Instr L K)) (h : Runs c r) : Runs (.many c) r := by simpa using Runs.again h Runs.stop

/-- C170, violated: logging a cache while another goroutine uses it: `String` takes no mutex. -/
theorem C170_string_violated («at» : Bool) : ∃ tr, Exec lru tr ∧ Race «at» tr := by
  refine ⟨[(0, .lock ()), (0, .read .index), (0, .write .list), (1, .read .list)], ?_, adjacent _ _ 2 0 1 _ _ (by decide) rfl rfl (.wr _)⟩
  refine exec2 _ _ (lruInvalidate ()) lruString ([.lock ()] ++ [.read .index, .write .list] ++ [.unlock ()]) ([.read .list] ++ (([.read .curSize] ++ ([.read .maxSize] ++ [])) ++ []))
    (by simp [lru]) (by simp [lru]) ?_ ?_ (by decide) (by decide) (by decide) (by decide)
  · refine .within (r := [.read .index] ++ (([.write .list] ++ ([] ++ ([.write .index] ++ ([.read .curSize] ++ ([.write .curSize] ++ []))))) ++ [])) ?_ (by decide)
    exact .seq (.i _) (.seq (.right (.seq (.i _) (.seq .stop (.seq (.i _) (.seq (.i _) (.seq (.i _) .nil)))))) .nil)
  · exact .seq (.i _) (.seq (.left (.seq (.i _) (.seq (.i _) .nil))) .nil)

/-- The place an access is to. -/
def place {L K : Type} : Instr L K → Option L
  | .read x | .write x | .atomic x => some x
  | _ => none

/-- C170: what counts as a conflict: accesses to one place that are neither both reads nor both atomic. -/
theorem C170_conflicts {L K : Type} (a b : Instr L K) : Conflict a b ↔ ∃ x, place a = some x ∧ place b = some x ∧ ¬ (a = .read x ∧ b = .read x) ∧ ¬ (a = .atomic x ∧ b = .atomic x) := by
  constructor
  · intro h
    cases h with
    | _ x => exact ⟨x, rfl, rfl, by simp, by simp⟩
  · rintro ⟨x, ha, hb, h1, h2⟩
    cases a <;> simp only [place, Option.some.injEq, reduceCtorEq] at ha <;> cases b <;> simp only [place, Option.some.injEq, reduceCtorEq] at hb <;> subst ha <;> subst hb <;>
      first | constructor | exact absurd ⟨rfl, rfl⟩ h1 | exact absurd ⟨rfl, rfl⟩ h2

/-- C170, violated: `Print` of a counter reads its sum without the mutex, while it is counted up. -/
theorem C170_counter_violated («at» : Bool) (s : Nat) : ∃ tr, Exec counter tr ∧ Race «at» tr := by
  refine ⟨[(1, .atomic .val), (1, .read .conf), (0, .read .conf), (0, .atomic .val), (0, .lock (.series s)), (0, .read (.sum s)), (0, .write (.sum s)), (1, .read (.sum s))],
    ?_, adjacent _ _ 6 0 1 _ _ (by decide) rfl rfl (.wr _)⟩
  refine exec2 _ _ (count s) (countPrint s) ([.read .conf] ++ ([.atomic .val] ++ ((.lock (.series s) :: [.read (.sum s), .write (.sum s)] ++ [.unlock (.series s)]) ++ [])))
    ([.atomic .val] ++ ([.read .conf] ++ ([.read (.sum s)] ++ []))) ⟨s, .inl rfl⟩ ⟨s, .inr rfl⟩ ?_ ?_ ?_ ?_ ?_ ?_
  · exact .seq (.i _) (.seq (.i _) (.seq (.within (r := ([.read (.sum s)] ++ ([.write (.sum s)] ++ []) : List (Instr PromLoc PromLock))) (.seq (.i _) (.seq (.i _) .nil)) ⟨[], rfl⟩) .nil))
  · exact .seq (.i _) (.seq (.i _) (.seq (.i _) .nil))
  · simp [validFrom, owners, own]
  · exact ⟨[.unlock (.series s)], rfl⟩
  · exact ⟨[], rfl⟩
  · simp

/-- C170, violated: a record may be edited, by whoever stored it or got it, while a filter looks at it, or while another edits it. -/
theorem C170_record_violated («at» : Bool) (r : Nat) : ∃ tr, Exec kvUse tr ∧ Race «at» tr ∧ .lock () ∈ proj 0 tr := by
  refine ⟨[(0, .lock ()), (0, .read .data), (0, .read (.record r)), (1, .write (.record r))], ?_, adjacent _ _ 2 0 1 _ _ (by decide) rfl rfl (.rw _), by simp [proj]⟩
  refine exec2 _ _ (.within () (.many (block [rd .data, opt (rd (.record r))]))) (wr (.record r)) ([.lock ()] ++ [.read .data, .read (.record r)] ++ [.unlock ()]) [.write (.record r)]
    (.inl (.inr ⟨r, rfl⟩)) (.inr ⟨r, .inr rfl⟩) ?_ (.i _) ?_ ⟨[.unlock ()], rfl⟩ ⟨[], rfl⟩ ?_
  · exact .within (r := ([.read .data] ++ ([.read (.record r)] ++ []) : List (Instr KvLoc Unit))) (runs_many (block [rd KvLoc.data, opt (rd (KvLoc.record r))]) ([.read .data] ++ ([.read (.record r)] ++ [])) (.seq (.i _) (.seq (.right (.i _)) .nil))) ⟨[], rfl⟩
  · simp [validFrom, owners]
  · simp

/-- C170, violated: a slice handed to the pipe may be used again while it is read from. -/
theorem C170_slice_violated («at» : Bool) : ∃ tr, Exec rwcReuse tr ∧ Race «at» tr ∧ .lock () ∈ proj 0 tr := by
  refine ⟨[(0, .lock ()), (0, .read .toRead), (0, .read .bytes), (1, .write .bytes)], ?_, adjacent _ _ 2 0 1 _ _ (by decide) rfl rfl (.rw _), by decide⟩
  refine exec2 _ _ _ (wr .bytes) ([.lock ()] ++ (([] ++ ([.read .toRead] ++ (([.read .bytes] ++ ([.read .toRead] ++ ([.write .toRead] ++ []))) ++ []))) ++ ([.unlock ()] ++ []))) [.write .bytes]
    (.inl (by unfold rwc; iterate 6 apply List.mem_cons_of_mem
              exact List.mem_cons_self)) (.inr rfl) ?_ (.i _) (by decide) (by decide) (by decide) (by decide)
  exact .seq (.i _) (.seq (.right (.seq .stop (.seq (.i _) (.seq (.left (.seq (.i _) (.seq (.i _) (.seq (.right (.i _)) .nil)))) .nil)))) (.seq (.i _) .nil))

/-- C170, violated: registering something while the document is asked for: both use the maps of the document. -/
theorem C170_document_violated («at» : Bool) : ∃ tr, Exec registering tr ∧ Race «at» tr := by
  refine ⟨[(0, .atomic .mux), (1, .atomic .mux), (0, .write .paths), (1, .read .paths)], ?_, adjacent _ _ 2 0 1 _ _ (by decide) rfl rfl (.wr _)⟩
  refine exec2 _ _ (block [atm .mux, wr .paths]) (block [atm .mux, .many (rd .paths), .many (rd .schemas)]) ([.atomic .mux] ++ ([.write .paths] ++ []))
    ([.atomic .mux] ++ ([.read .paths] ++ ([] ++ []))) (.inr (by simp)) (.inl (by simp [serving])) ?_ ?_ (by decide) (by decide) (by decide) (by decide)
  · exact .seq (.i _) (.seq (.i _) .nil)
  · exact .seq (.i _) (.seq (runs_many _ _ (.i _)) (.seq .stop .nil))

/-- C170, violated: `Close` of a websocket writes while others do: it takes another mutex. -/
theorem C170_close_violated («at» : Bool) : ∃ tr, Exec (fun c => c = wsWrite ∨ c = wsClose) tr ∧ Race «at» tr ∧ .lock .m ∈ proj 0 tr ∧ .lock .wio ∈ proj 1 tr := by
  refine ⟨[(0, .lock .m), (1, .lock .wio), (0, .write ()), (1, .write ())], ?_, adjacent _ _ 2 0 1 _ _ (by decide) rfl rfl (.ww _), by decide, by decide⟩
  have one : Runs (.many (.alt (rd ()) (wr ()))) ([.write ()] : List (Instr Unit WsLock)) := runs_many _ _ (.right (.i _))
  refine exec2 _ _ wsWrite wsClose ([.lock .m] ++ [.write ()] ++ [.unlock .m]) ([.lock .wio] ++ [.write ()] ++ [.unlock .wio]) (.inl rfl) (.inr rfl) ?_ ?_
    (by decide) (by decide) (by decide) (by decide)
  · exact .within one (List.prefix_refl _)
  · exact .within one (List.prefix_refl _)

/-- C170, violated: two goroutines that unmarshal something with `UnmarshalJSON`, or into a `json.RawMessage`; and two requests to the store of the example. -/
theorem C170_maps_violated («at» : Bool) : (∃ tr, Exec warnIneff tr ∧ Race «at» tr) ∧ (∃ tr, Exec exampleStore tr ∧ Race «at» tr) := by
  constructor
  · refine ⟨[(0, .read ()), (1, .read ()), (0, .write ()), (1, .write ())], ?_, adjacent _ _ 2 0 1 _ _ (by decide) rfl rfl (.ww _)⟩
    exact exec2 _ _ (block [rd (), opt (wr ())]) (block [rd (), opt (wr ())]) ([.read ()] ++ ([.write ()] ++ [])) ([.read ()] ++ ([.write ()] ++ [])) rfl rfl
      (.seq (.i _) (.seq (.right (.i _)) .nil)) (.seq (.i _) (.seq (.right (.i _)) .nil)) (by decide) (by decide) (by decide) (by decide)
  · refine ⟨[(0, .read ()), (0, .write ()), (1, .read ())], ?_, adjacent _ _ 1 0 1 _ _ (by decide) rfl rfl (.wr _)⟩
    exact exec2 _ _ (block [rd (), wr ()]) (rd ()) ([.read ()] ++ ([.write ()] ++ [])) [.read ()] (by simp [exampleStore]) (by simp [exampleStore])
      (.seq (.i _) (.seq (.i _) .nil)) (.i _) (by decide) (by decide) (by decide) (by decide)

/-! ### utils/io.go -/

/-- utils/io.go L13-46, `ReadAll`: the place is the buffer `out`. Goroutine 0 is the caller, who waits for channel 0 (`ch`), or 1 (`c.Done()`), and then looks at the
buffer; goroutine 1 reads and writes to the buffer, and at the end sends on channel 0; goroutine 2 cancels the context. -/
structure ReadAll (waited : Nat) (tr : Trace Unit Unit) : Prop where
  valid : Valid tr
  caller : proj 0 tr <+: [.recv waited, .read ()]
  reader : ∃ n, proj 1 tr <+: List.replicate n (.write ()) ++ [.send 0]
  cancel : proj 2 tr <+: [.send 1]
  others : ∀ e ∈ tr, e.1 < 3

theorem proj_at {tr : Trace L K} {i g : Nat} {a : Instr L K} (h : tr[i]? = some (g, a)) : proj g tr = proj g (tr.take i) ++ a :: proj g (tr.drop (i + 1)) := by
  have hl : i < tr.length := by
    rcases Nat.lt_or_ge i tr.length with h' | h'
    · exact h'
    · rw [List.getElem?_eq_none h'] at h; cases h
  have he : tr = tr.take i ++ (g, a) :: tr.drop (i + 1) := by
    have h2 : tr[i] = (g, a) := by rw [List.getElem?_eq_getElem hl] at h; exact Option.some.inj h
    rw [← h2, List.getElem_cons_drop, List.take_append_drop]
  conv => lhs; rw [he]
  simp [proj]

theorem mem_proj {tr : Trace L K} {g : Nat} {a : Instr L K} : a ∈ proj g tr ↔ (g, a) ∈ tr := by
  unfold proj
  simp only [List.mem_map, List.mem_filter, beq_iff_eq]
  constructor
  · rintro ⟨⟨g', a'⟩, ⟨h, h'⟩, h2⟩
    simp only at h' h2
    rw [← h', ← h2]; exact h
  · intro h; exact ⟨_, ⟨h, rfl⟩, rfl⟩

theorem allowed_at [DecidableEq K] {tr : Trace L K} (hv : Valid tr) {n : Nat} {e : Nat × Instr L K} (hn : tr[n]? = some e) : allowed (tr.take n) e := by
  have := hv.take (n + 1)
  rw [take_succ hn] at this
  generalize hx : tr.take n ++ [e] = x at this
  cases this with
  | nil => simp at hx
  | snoc _ ha =>
    have := List.append_inj' hx rfl
    simp only [List.cons.injEq, and_true] at this
    rw [this.1, this.2]
    exact ha

/-- C170: `ReadAll` has no race as long as the caller waits for the reading goroutine, whatever is read. -/
theorem C170_readall_partial («at» : Bool) (tr : Trace Unit Unit) (h : ReadAll 0 tr) : ¬ Race «at» tr := by
  obtain ⟨n, hrd⟩ := h.reader
  -- what was sent was sent by the reader, as the last thing it did
  have last : ∀ p : Nat, tr[p]? = some (1, Instr.send 0) → ∀ j b, tr[j]? = some (1, b) → j ≤ p := by
    intro p hp j b hj
    rcases Nat.lt_or_ge p j with hlt | hle
    · exfalso
      rw [proj_at hp] at hrd
      obtain ⟨t, ht⟩ := hrd
      have hidx : (List.replicate n (Instr.write ()) ++ [Instr.send 0] : List (Instr Unit Unit))[(proj 1 (tr.take p)).length]? = some (.send 0) := by
        rw [← ht, List.append_assoc, List.getElem?_append_right (Nat.le_refl _)]
        simp
      have hn : (proj 1 (tr.take p)).length = n := by
        rcases Nat.lt_trichotomy (proj 1 (tr.take p)).length n with h1 | h1 | h1
        · rw [List.getElem?_append_left (by simpa using h1), List.getElem?_replicate, if_pos h1] at hidx
          cases hidx
        · exact h1
        · rw [List.getElem?_eq_none (by simp; omega)] at hidx
          cases hidx
      have hlen := congrArg List.length ht
      simp only [List.length_append, List.length_cons, List.length_replicate, List.length_nil] at hlen
      have hnil : proj 1 (tr.drop (p + 1)) = [] := List.eq_nil_of_length_eq_zero (by omega)
      have : b ∈ proj 1 (tr.drop (p + 1)) := by
        rw [mem_proj, List.mem_iff_getElem?]
        exact ⟨j - (p + 1), by rw [List.getElem?_drop, Nat.add_sub_cancel' (by omega)]; exact hj⟩
      rw [hnil] at this
      cases this
    · exact hle
  -- before the caller looks at the buffer, the reader has sent
  have before : ∀ i : Nat, tr[i]? = some (0, Instr.read ()) → ∃ p q : Nat, p < q ∧ q < i ∧ tr[p]? = some (1, .send 0) ∧ tr[q]? = some (0, .recv 0) := by
    intro i hi
    have hc := h.caller
    rw [proj_at hi] at hc
    have hmem : Instr.recv 0 ∈ proj 0 (tr.take i) := by
      obtain ⟨t, ht⟩ := hc
      cases hx : proj 0 (tr.take i) with
      | nil => rw [hx] at ht; simp at ht
      | cons y ys =>
        rw [hx] at ht
        simp only [List.cons_append, List.cons.injEq] at ht
        rw [ht.1]; exact List.mem_cons_self
    rw [mem_proj, List.mem_iff_getElem?] at hmem
    obtain ⟨q, hq⟩ := hmem
    have hqi : q < i := by
      rcases Nat.lt_or_ge q i with h' | h'
      · exact h'
      · rw [List.getElem?_take_eq_none h'] at hq; cases hq
    rw [List.getElem?_take_of_lt hqi] at hq
    obtain ⟨g, hg⟩ := allowed_at h.valid hq
    rw [List.mem_iff_getElem?] at hg
    obtain ⟨p, hp⟩ := hg
    have hpq : p < q := by
      rcases Nat.lt_or_ge p q with h' | h'
      · exact h'
      · rw [List.getElem?_take_eq_none h'] at hp; cases hp
    rw [List.getElem?_take_of_lt hpq] at hp
    refine ⟨p, q, hpq, hqi, ?_, hq⟩
    have hmem : (g, Instr.send 0) ∈ tr := List.mem_of_getElem? hp
    have hg3 := h.others _ hmem
    simp only at hg3
    have hpr := mem_proj.2 hmem
    have : g = 1 := by
      rcases (by omega : g = 0 ∨ g = 1 ∨ g = 2) with rfl | rfl | rfl
      · have := h.caller.subset hpr; simp at this
      · rfl
      · have := h.cancel.subset hpr; simp at this
    rw [← this]; exact hp
  rintro ⟨i, j, g, g', a, b, hij, hg, hi, hj, hc, hnb⟩
  have who : ∀ (n g : Nat) (a : Instr Unit Unit), tr[n]? = some (g, a) → (a = .read () ∨ a = .write () ∨ a = .atomic ()) → (g = 0 ∧ a = .read ()) ∨ (g = 1 ∧ a = .write ()) := by
    intro n g a hn ha
    have hmem := List.mem_of_getElem? hn
    have hg3 := h.others _ hmem
    have hpr := mem_proj.2 hmem
    simp only at hg3
    rcases (by omega : g = 0 ∨ g = 1 ∨ g = 2) with rfl | rfl | rfl
    · have := h.caller.subset hpr
      left
      rcases ha with rfl | rfl | rfl <;> simp at this ⊢
    · have := hrd.subset hpr
      right
      rcases ha with rfl | rfl | rfl <;> simp [List.mem_replicate] at this ⊢
    · have := h.cancel.subset hpr
      rcases ha with rfl | rfl | rfl <;> simp at this
  have h1 := who i g a hi (by cases hc <;> simp)
  have h2 := who j g' b hj (by cases hc <;> simp)
  rcases h1 with ⟨rfl, rfl⟩ | ⟨rfl, rfl⟩ <;> rcases h2 with ⟨rfl, rfl⟩ | ⟨rfl, rfl⟩
  · exact hg rfl
  · obtain ⟨p, q, h1, h2, h3, h4⟩ := before i hi
    have := last p h3 j _ hj
    omega
  · obtain ⟨p, q, h1, h2, h3, h4⟩ := before j hj
    have := last p h3 i _ hi
    have hip : i ≠ p := by intro he; rw [he, h3] at hi; simp at hi
    exact hnb (.trans (.trans (.po (by omega) hi h3) (.chan h1 h3 h4)) (.po h2 h4 hj))
  · exact hg rfl

/-- C170, violated: when the context is cancelled, `ReadAll` returns the buffer while it is still written to. -/
theorem C170_cancel_violated («at» : Bool) : ∃ tr, ReadAll 1 tr ∧ Race «at» tr := by
  refine ⟨[(2, .send 1), (0, .recv 1), (1, .write ()), (0, .read ())], ⟨by simpa using validFrom_ok _ [] .nil (by decide : validFrom [] _ = true), by decide, ⟨1, by decide⟩, by decide, by decide⟩,
    adjacent _ _ 2 1 0 _ _ (by decide) rfl rfl (.wr _)⟩

/-! ### an example -/

/-- Two goroutines in a cache, one after the other: not a race, since the mutex was unlocked and locked between. -/
def twoGets : Trace MemLoc Unit :=
  [(0, .lock ()), (0, .read .m), (0, .read .miss), (0, .write .m), (0, .unlock ()), (1, .lock ()), (1, .read .m)]

example : Exec mem twoGets := by
  refine exec2 _ _ (.within () (block [rd .m, opt (block [rd .miss, opt (wr .m)])])) (.within () (block [rd .m, opt (block [rd .miss, opt (wr .m)])]))
    ([.lock ()] ++ [.read .m, .read .miss, .write .m] ++ [.unlock ()]) ([.lock ()] ++ [.read .m] ++ [.unlock ()]) (by simp [mem]) (by simp [mem]) ?_ ?_
    (by decide) (by decide) (by decide) (by decide)
  · exact .within (r := [.read .m] ++ (([.read .miss] ++ ([.write .m] ++ [])) ++ [])) (.seq (.i _) (.seq (.right (.seq (.i _) (.seq (.right (.i _)) .nil))) .nil)) ⟨[], rfl⟩
  · exact .within (r := [.read .m] ++ ([] ++ [])) (.seq (.i _) (.seq (.left .nil) .nil)) ⟨[], rfl⟩

example : HB false twoGets 3 6 := .trans (.trans (.po (by decide) rfl (g := 0) (b := .unlock ()) (j := 4) rfl) (.mutex (by decide) rfl rfl (j := 5))) (.po (by decide) rfl rfl)

/-- All that is done with gauges, histograms and counters. -/
example : gauges (block [rd .conf, atm .val]) ∧ gauges (atm (.gauge 3)) ∧ gauges (block [atm .val, rd .conf, atm (.gauge 3)]) ∧ histogram (observe 1) ∧ histogram (histPrint 2) ∧ counter (count 1) ∧ counter (countPrint 2) :=
  ⟨.inl rfl, .inr ⟨3, .inl rfl⟩, .inr ⟨3, .inr rfl⟩, ⟨1, .inl rfl⟩, ⟨2, .inr rfl⟩, ⟨1, .inl rfl⟩, ⟨2, .inr rfl⟩⟩

/-- Messages may be sent and received at any time. -/
example : ok promGuard [] (.send 1) = true ∧ ok promGuard [.registry] (.recv 1) = true ∧ ok promGuard [] (.read .metrics) = false := by decide

end Verif.Sync.Race

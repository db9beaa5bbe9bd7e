import Verif.Ctx.Props
import Verif.Http.Props
/-!
# The contexts of requests: http/server.go, http/mux.go, http/call.go, http/ws/handler.go

`Listen` gives net/http the context it was called with. Every connection and every request gets a context derived from it: what net/http adds (values
under keys of its own, a cancel context for the connection and one for the request; Go 1.20, server.go `Serve`, `serve` and `readRequest`) is assumed.
C185 is about the tracking id that an error response shows and about the tags that log lines show, C186 about cancellation.
-/
set_option autoImplicit false
namespace Verif.Http.Requests
open Verif.Ctx Verif.Strconv Verif.Enc Verif.Api Verif.Http

/-- A request: the addresses of the listener and of the client, the values net/http attaches, the identities of the two cancel contexts, and what
the request line and the headers say. http/server.go L46-48, L96-101. -/
structure Arrival where
  addr : String
  remote : String
  server : Nat
  loc : Nat
  conn : Nat
  req : Nat
  ua : String
  path : String
deriving DecidableEq

/-- How the context of a request is derived from the one given to `Listen`: `BaseContext`, `ConnContext` (http/server.go L96-101) and the handler
of `NewServer` (L46-48), with what net/http does in between; `q` is the JSON encoding of a string. -/
def wraps (q : String → String) (a : Arrival) : List Ctx.Wrap :=
  [.tag "http.addr" (q a.addr), .value (.other 0) a.server, .tag "http.remote" (q a.remote), .value (.other 1) a.loc, .cancel a.conn none, .cancel a.req none,
    .tag "ua" (q a.ua), .tag "path" (q a.path)]

/-- The context of APIs and of `HandleRequest`. http/server.go L46-48, L193. -/
def requestCtx (q : String → String) (base : Ctx) (a : Arrival) : Ctx := build q base (wraps q a)

/-- The context of what is registered by `Handle`: the tags are added once more. http/mux.go L23-25. -/
def handledCtx (q : String → String) (base : Ctx) (a : Arrival) : Ctx := build q (requestCtx q base a) [.tag "ua" (q a.ua), .tag "path" (q a.path)]

/-- The context of a `CallHandler`: it ends at `t`, `ReadTimeout` after the request came; `id` is the timer. http/call.go L29-32. -/
def callCtx (q : String → String) (base : Ctx) (a : Arrival) (id t : Nat) : Ctx := withDeadline id (requestCtx q base a) t

/-- The context of a websocket connection; `id` is the cancel context of the span, `uuid` what `uuid.NewString` would return.
http/ws/handler.go L33-35, L81-83. -/
def wsCtx (q : String → String) (uuid : String) (id : Nat) (base : Ctx) (a : Arrival) : Ctx := span q uuid id (handledCtx q base a)

/-- The context of the warning that a handler sent a second status: none. http/mux.go L61-62. -/
def warnCtx (_ : Ctx) : Option Ctx := none

/-- The answer to a request: `handleRequest`, which takes the tracking id from its context. http/server.go L193, L206. -/
def answer (N : NetExt) (c : Ctx) (accept : Str) (f : Bytes → Done Bytes) (body : Option (Option Bytes)) : Option (Resp × Int) :=
  handleRequest N (getTracking c).toList accept f body

/-! ### C185 -/

theorem extract_tag (k j : String) (p : Ctx) : extractTags (some (.tag k j p)) = (extractTags (some p)).set k j := by
  simp only [extractTags, rangeTag, valueRange]
  rcases valueRange (E := Empty) (fun k j (out : Tags) => (out.set k j, none)) p (fun _ => none) with ⟨s, _ | e⟩
  · rfl
  · exact e.elim

theorem extract_request (q : String → String) (base : Ctx) (a : Arrival) : extractTags (some (requestCtx q base a)) =
    ((((extractTags (some base)).set "http.addr" (q a.addr)).set "http.remote" (q a.remote)).set "ua" (q a.ua)).set "path" (q a.path) := by
  have e1 : ∀ k v p, extractTags (some (.value k v p)) = extractTags (some p) := fun _ _ _ => rfl
  have e2 : ∀ k v p, extractTags (some (.cancel k v p)) = extractTags (some p) := fun _ _ _ => rfl
  simp only [requestCtx, wraps, build, List.foldl, Ctx.Wrap.apply, extract_tag, e1, e2]

/-- C185 (partial): a log line of a request shows its path, its user agent, the address of its client and that of the listener, and otherwise the tags of the
context given to `Listen`: nothing of other requests. Missing: something that tells requests of one client for one path apart. -/
theorem C185_tags_partial (q : String → String) (base : Ctx) (a : Arrival) (k : String) :
    extractTags (some (requestCtx q base a)) k = (if k = "path" then some (q a.path) else if k = "ua" then some (q a.ua) else if k = "http.remote" then some (q a.remote)
      else if k = "http.addr" then some (q a.addr) else extractTags (some base) k) ∧
    extractTags (some (handledCtx q base a)) k = extractTags (some (requestCtx q base a)) k := by
  refine ⟨?_, ?_⟩
  · rw [extract_request]; rfl
  · simp only [handledCtx, build, List.foldl, Ctx.Wrap.apply, extract_tag, extract_request, Tags.set]
    grind

/-- C185 (partial): requests that differ in path, user agent or client have different log lines. -/
theorem C185_differ_partial (q : String → String) (hq : ∀ s t, q s = q t → s = t) (base : Ctx) (a b : Arrival) :
    extractTags (some (requestCtx q base a)) = extractTags (some (requestCtx q base b)) ↔ a.path = b.path ∧ a.ua = b.ua ∧ a.remote = b.remote ∧ a.addr = b.addr := by
  constructor
  · intro h
    have g := fun k => congrFun h k
    simp only [(C185_tags_partial q base a _).1, (C185_tags_partial q base b _).1] at g
    have h1 := g "path"; have h2 := g "ua"; have h3 := g "http.remote"; have h4 := g "http.addr"
    simp at h1 h2 h3 h4
    exact ⟨hq _ _ h1, hq _ _ h2, hq _ _ h3, hq _ _ h4⟩
  · rintro ⟨h1, h2, h3, h4⟩
    rw [extract_request, extract_request, h1, h2, h3, h4]

/-- The tracking id of a request is that of the context given to `Listen`. -/
theorem tracking_request (q : String → String) (base : Ctx) (a : Arrival) (id t : Nat) : getTracking (requestCtx q base a) = getTracking base ∧
    getTracking (handledCtx q base a) = getTracking base ∧ getTracking (callCtx q base a id t) = getTracking base := by
  refine ⟨?_, ?_, ?_⟩
  · simp [getTracking, requestCtx, wraps, build, Ctx.Wrap.apply, value]
  · simp [getTracking, handledCtx, requestCtx, wraps, build, Ctx.Wrap.apply, value]
  · unfold callCtx withDeadline
    split
    · split <;> simp [getTracking, requestCtx, wraps, build, Ctx.Wrap.apply, value]
    · simp [getTracking, requestCtx, wraps, build, Ctx.Wrap.apply, value]

/-- C185 (violated): whatever the context given to `Listen`, two requests that fail inside of the server with the same status get the same answer, whoever sent
them, whatever they asked for and whatever went wrong: the tracking id, which is all that a client is told of an internal error, does not tell which
request failed. -/
theorem C185_same_violated (q : String → String) (base : Ctx) (a b : Arrival) (N : NetExt) (accept accept' : Str) (f f' : Bytes → Done Bytes) (body body' : Option (Option Bytes))
    (e e' : Error) (hf : readBody N f body = .err e) (hf' : readBody N f' body' = .err e')
    (hc : Errors.errorCode (some e) 500 = Errors.errorCode (some e') 500) (h5 : 500 ≤ Errors.errorCode (some e) 500) :
    answer N (requestCtx q base a) accept f body = answer N (requestCtx q base b) accept' f' body' := by
  simp only [answer, (tracking_request q base _ 0 0).1]
  exact C56_no_leak N N _ _ _ _ _ _ _ e e' hf hf' hc h5

/-- C185 (violated): if the context given to `Listen` was made without `WithTracking` and `Span`, the answer to a request that fails inside of the server
has an empty tracking id. -/
theorem C185_empty_violated (q : String → String) (ws : List Ctx.Wrap) (hw : ∀ u s, Ctx.Wrap.tracking u s ∉ ws) (a : Arrival) (N : NetExt) (accept : Str)
    (f : Bytes → Done Bytes) (body : Option (Option Bytes)) (e : Error) (hf : readBody N f body = .err e) (hs : ErrorStatus (Errors.errorCode (some e) 500))
    (h5 : 500 ≤ Errors.errorCode (some e) 500) :
    ∃ r, answer N (requestCtx q (build q .background ws) a) accept f body = some (r, r.status) ∧ r.status = Errors.errorCode (some e) 500 ∧
      r.body = utf8 (lit "{\"tracking\":\"\"}") := by
  have ht : getTracking (build q .background ws) = "" := by
    have gen : ∀ (ws : List Ctx.Wrap) (c : Ctx), (∀ u s, Ctx.Wrap.tracking u s ∉ ws) → value .trackingGet (build q c ws) = value .trackingGet c := by
      intro ws
      induction ws with
      | nil => intro c _; rfl
      | cons w ws ih =>
        intro c h
        have h2 := ih (w.apply q c) (fun u s hm => h u s (List.mem_cons_of_mem _ hm))
        simp only [build, List.foldl] at h2 ⊢
        rw [h2]
        cases w with
        | tracking u s => exact absurd (List.mem_cons_self) (h u s)
        | _ => simp [Ctx.Wrap.apply, value]
    simp [getTracking, gen ws _ hw, value]
  obtain ⟨r, h1, h2, -, -, h3⟩ := C56_answer_partial N (getTracking (requestCtx q (build q .background ws) a)).toList accept f body e hf hs
  refine ⟨r, h1, h2, ?_⟩
  rw [h3 (by omega), (tracking_request q _ a 0 0).1, ht]
  congr 1

/-- What the log and the response say of the tracking id. -/
def Agree (q : String → String) (c : Ctx) : Prop :=
  extractTags (some c) "tracking-id" = (value .trackingGet c).map fun v => match v with | .str s => q s | _ => ""

theorem agree_build (q : String → String) (ws : List Ctx.Wrap) (hw : ∀ j, Ctx.Wrap.tag "tracking-id" j ∉ ws) : ∀ c, Agree q c → Agree q (build q c ws) := by
  induction ws with
  | nil => intro c h; exact h
  | cons w ws ih =>
    intro c h
    refine ih (fun j hm => hw j (List.mem_cons_of_mem _ hm)) (w.apply q c) ?_
    cases w with
    | tag k j =>
      have hk : ¬ "tracking-id" = k := fun e => hw j (e ▸ List.mem_cons_self)
      simp only [Agree, Ctx.Wrap.apply, extract_tag, Tags.set, hk, if_false, value]
      simpa [Agree] using h
    | tracking u s =>
      have : extractTags (some (.tracking (if s = "" then u else s) 0 (.tag "tracking-id" (q (if s = "" then u else s)) c))) =
        extractTags (some (.tag "tracking-id" (q (if s = "" then u else s)) c)) := rfl
      simp only [Agree, Ctx.Wrap.apply, withTracking, this, extract_tag, Tags.set, if_true, value, Option.map_some]
    | value k v => simpa [Agree, Ctx.Wrap.apply, value, extractTags, rangeTag, valueRange] using h
    | config v => simpa [Agree, Ctx.Wrap.apply, value, extractTags, rangeTag, valueRange] using h
    | cancel i d => simpa [Agree, Ctx.Wrap.apply, value, extractTags, rangeTag, valueRange] using h
    | detach => simpa [Agree, Ctx.Wrap.apply, value, extractTags, rangeTag, valueRange] using h

/-- C185 (partial): the tracking id in the answer is the one in the log lines of the request, unless tags of that name are attached otherwise. Missing: that it
belongs to that request only. -/
theorem C185_logged_partial (q : String → String) (ws : List Ctx.Wrap) (hw : ∀ j, Ctx.Wrap.tag "tracking-id" j ∉ ws) (a : Arrival) (id : String)
    (hi : value .trackingGet (build q .background ws) = some (.str id)) :
    extractTags (some (requestCtx q (build q .background ws) a)) "tracking-id" = some (q id) ∧ getTracking (requestCtx q (build q .background ws) a) = id := by
  have h := agree_build q ws hw .background rfl
  refine ⟨?_, ?_⟩
  · rw [(C185_tags_partial q _ a _).1]
    simpa [Agree, hi] using h
  · rw [(tracking_request q _ a 0 0).1]
    simp [getTracking, hi]

/-- C185 (partial): if the context given to `Listen` has no tracking id, every websocket connection gets the one made for it, in its context and in its log
lines. Missing: the contexts that have one (`C185_ws_violated`). -/
theorem C185_ws_partial (q : String → String) (uuid : String) (id : Nat) (base : Ctx) (a : Arrival) (hb : value .trackingNext base = none) :
    getTracking (wsCtx q uuid id base a) = uuid ∧ extractTags (some (wsCtx q uuid id base a)) "tracking-id" = some (q uuid) := by
  have hn : value .trackingNext (handledCtx q base a) = none := by simp [handledCtx, requestCtx, wraps, build, Ctx.Wrap.apply, value, hb]
  refine ⟨C23_untracked_uuid q _ hn uuid id, ?_⟩
  have : wsCtx q uuid id base a = .tracking uuid 0 (.tag "tracking-id" (q uuid) (.cancel id none (handledCtx q base a))) := by simp [wsCtx, span, value, hn, withTracking]
  rw [this]
  show extractTags (some (.tag "tracking-id" (q uuid) (.cancel id none (handledCtx q base a)))) _ = _
  rw [extract_tag]; simp [Tags.set]

/-- C185 (violated): if it has one, all websocket connections of the server have the same tracking id. -/
theorem C185_ws_violated (q : String → String) (ws : List Ctx.Wrap) (u1 u2 : String) (i1 i2 : Nat) (a b : Arrival)
    (h : (value .trackingGet (build q .background ws)).isSome = true) :
    getTracking (wsCtx q u1 i1 (build q .background ws) a) = getTracking (build q .background ws) ++ ".1" ∧
    getTracking (wsCtx q u2 i2 (build q .background ws) b) = getTracking (build q .background ws) ++ ".1" := by
  have key : ∀ (a : Arrival) u i, getTracking (wsCtx q u i (build q .background ws) a) = getTracking (build q .background ws) ++ ".1" := by
    intro a u i
    have e : handledCtx q (build q .background ws) a = build q .background (ws ++ (wraps q a ++ [.tag "ua" (q a.ua), .tag "path" (q a.path)])) := by
      simp only [handledCtx, requestCtx, build, List.foldl_append]
    have hs : (value .trackingGet (handledCtx q (build q .background ws) a)).isSome = true := by
      simpa [handledCtx, requestCtx, wraps, build, Ctx.Wrap.apply, value] using h
    rw [← (tracking_request q (build q .background ws) a 0 0).2.1]
    rw [wsCtx]
    rw [e] at hs ⊢
    exact (C23_siblings_distinct_violated q _ u u i i hs).1
  exact ⟨key a u1 i1, key b u2 i2⟩

/-- C185 (violated): the warning that a handler has sent a second status shows no tag at all, so not the request either. -/
theorem C185_warning_violated (q : String → String) (base : Ctx) (a : Arrival) (k : String) : extractTags (warnCtx (requestCtx q base a)) k = none ∧
    extractTags (some (requestCtx q base a)) "path" = some (q a.path) := by
  refine ⟨rfl, ?_⟩
  rw [(C185_tags_partial q base a _).1]; rfl

/-- A client. -/
def ann : Arrival := ⟨"[::]:80", "10.0.0.1:999", 5, 6, 0, 1, "curl", "/a"⟩
/-- Another client. -/
def bob : Arrival := ⟨"[::]:80", "10.0.0.2:777", 5, 7, 2, 3, "go", "/b"⟩

example : getTracking (requestCtx id (withTracking id "u" .background "srv") ann) = "srv" ∧ getTracking (requestCtx id (withTracking id "u" .background "srv") bob) = "srv" ∧
    getTracking (wsCtx id "u1" 4 (withTracking id "u" .background "srv") ann) = "srv.1" ∧ getTracking (wsCtx id "u2" 5 (withTracking id "u" .background "srv") bob) = "srv.1" ∧
    getTracking (wsCtx id "u1" 4 .background ann) = "u1" ∧ getTracking (requestCtx id .background ann) = "" := by decide
example : extractTags (some (handledCtx id (.tag "app" "x" .background) bob)) "path" = some "/b" ∧ extractTags (some (handledCtx id (.tag "app" "x" .background) bob)) "app" = some "x" ∧
    extractTags (some (handledCtx id (.tag "app" "x" .background) bob)) "ws.sid" = none := by decide
example (N : NetExt) (e e' : Error) : answer N (requestCtx id .background ann) [] (fun _ => .err (.httpErr 500 (some e))) (some (some [])) =
    answer N (requestCtx id .background bob) (lit "gzip") (fun _ => .err (.httpErr 500 (some e'))) (some (some [1, 2])) :=
  C185_same_violated _ _ _ _ N _ _ _ _ _ _ (.httpErr 500 (some e)) (.httpErr 500 (some e')) rfl rfl rfl (by simp [Errors.errorCode, Errors.Err.asHttp])

/-! ### C186 -/

theorem ids_request (q : String → String) (base : Ctx) (a : Arrival) : cancelIds (requestCtx q base a) = a.req :: a.conn :: cancelIds base ∧
    cancelIds (handledCtx q base a) = a.req :: a.conn :: cancelIds base := by
  simp [handledCtx, requestCtx, wraps, build, Ctx.Wrap.apply, cancelIds]

theorem ids_ws (q : String → String) (uuid : String) (id : Nat) (base : Ctx) (a : Arrival) : cancelIds (wsCtx q uuid id base a) = id :: a.req :: a.conn :: cancelIds base := by
  simp only [wsCtx, span]
  split <;> simp [withTracking, cancelIds, (ids_request q base a).2]

theorem ids_call (q : String → String) (base : Ctx) (a : Arrival) (id t : Nat) : cancelIds (callCtx q base a id t) = id :: a.req :: a.conn :: cancelIds base := by
  unfold callCtx withDeadline
  split
  · split <;> simp [cancelIds, (ids_request q base a).1]
  · simp [cancelIds, (ids_request q base a).1]

theorem known_request (q : String → String) (w : World) (base : Ctx) (a : Arrival) (h : Known w (requestCtx q base a)) : Known w base := by
  simp only [requestCtx, wraps, build, List.foldl, Ctx.Wrap.apply, Known] at h
  exact h.2.2

/-- C186: in every history, the context of a request is cancelled exactly if its request, its connection, or a context that the one given to
`Listen` derives from (up to a `Detach`) was. -/
theorem C186_request (q : String → String) (base : Ctx) (a : Arrival) {w : World} {h : List Nat} (hr : w.Reach h) (hk : Known w (requestCtx q base a)) :
    ((err w (requestCtx q base a)).isSome = true ↔ a.req ∈ h ∨ a.conn ∈ h ∨ (err w base).isSome = true) ∧
    ((err w (handledCtx q base a)).isSome = true ↔ a.req ∈ h ∨ a.conn ∈ h ∨ (err w base).isSome = true) := by
  have hk2 : Known w (handledCtx q base a) := hk
  rw [C22_cancelled_iff hr _ hk, C22_cancelled_iff hr _ hk2, C22_cancelled_iff hr _ (known_request q w base a hk), (ids_request q base a).1, (ids_request q base a).2]
  simp

/-- C186: the same for calls, whose own timer is one more reason. -/
theorem C186_call (q : String → String) (base : Ctx) (a : Arrival) (id t : Nat) {w : World} {h : List Nat} (hr : w.Reach h) (hk : Known w (callCtx q base a id t)) :
    (err w (callCtx q base a id t)).isSome = true ↔ id ∈ h ∨ a.req ∈ h ∨ a.conn ∈ h ∨ (err w base).isSome = true := by
  have hk2 : Known w (requestCtx q base a) := by
    unfold callCtx withDeadline at hk
    split at hk
    · split at hk <;> exact hk.2
    · exact hk.2
  rw [C22_cancelled_iff hr _ hk, C22_cancelled_iff hr _ (known_request q w base a hk2), ids_call]
  simp

/-- C186: and for websockets, where the span, which is ended when the loop has ended, is one more reason. -/
theorem C186_ws (q : String → String) (uuid : String) (base : Ctx) (a : Arrival) (id : Nat) {w : World} {h : List Nat} (hr : w.Reach h)
    (hk : Known w (wsCtx q uuid id base a)) :
    (err w (wsCtx q uuid id base a)).isSome = true ↔ id ∈ h ∨ a.req ∈ h ∨ a.conn ∈ h ∨ (err w base).isSome = true := by
  have hk2 : Known w (requestCtx q base a) := by
    simp only [wsCtx, span] at hk
    split at hk <;> exact hk.2
  rw [C22_cancelled_iff hr _ hk, C22_cancelled_iff hr _ (known_request q w base a hk2), ids_ws]
  simp

/-- C186: when the request or the connection of another client ends, the context of a request stays as it is. -/
theorem C186_others (q : String → String) (base : Ctx) (a b : Arrival) {w : World} (hk : Known w (requestCtx q base b)) (x : Cancelled) (i : Nat)
    (hi : i = a.req ∨ i = a.conn) (hreq : b.req ≠ a.req ∧ b.req ≠ a.conn) (hconn : b.conn ≠ a.req ∧ b.conn ≠ a.conn) (hb : a.req ∉ cancelIds base ∧ a.conn ∉ cancelIds base) :
    err (w.cancel i x) (requestCtx q base b) = err w (requestCtx q base b) := by
  have hd : done (requestCtx q base b) = some b.req := by simp [requestCtx, wraps, build, Ctx.Wrap.apply, done]
  obtain ⟨n, hn, hc⟩ := known_done w _ hk _ hd
  simp only [err, hd, World.cancel, hn]
  cases w.st b.req with
  | some y => rfl
  | none =>
    simp only [hc, (ids_request q base b).1, List.mem_cons]
    rw [if_neg]
    rcases hi with rfl | rfl
    · rintro (h | h | h)
      · exact hreq.1 h.symm
      · exact hconn.1 h.symm
      · exact hb.1 h
    · rintro (h | h | h)
      · exact hreq.2 h.symm
      · exact hconn.2 h.symm
      · exact hb.2 h

/-- C186: requests have the deadline of the context given to `Listen`, and calls that or the one of their own, whichever comes first. -/
theorem C186_deadline (q : String → String) (base : Ctx) (a : Arrival) (id t : Nat) (uuid : String) :
    deadline (requestCtx q base a) = deadline base ∧ deadline (handledCtx q base a) = deadline base ∧ deadline (wsCtx q uuid id base a) = deadline base ∧
    deadline (callCtx q base a id t) = some (match deadline base with | some d => min d t | none => t) := by
  have h1 : deadline (requestCtx q base a) = deadline base := by simp [requestCtx, wraps, build, Ctx.Wrap.apply, deadline]
  have h2 : deadline (handledCtx q base a) = deadline base := by simp [handledCtx, requestCtx, wraps, build, Ctx.Wrap.apply, deadline]
  refine ⟨h1, h2, ?_, ?_⟩
  · simp only [wsCtx, span]
    split <;> simp [withTracking, deadline, h2]
  · simp only [callCtx, withDeadline, h1]
    cases hd : deadline base with
    | none => simp [deadline]
    | some d =>
      simp only
      split
      · rw [deadline, h1, hd, Nat.min_eq_left (by omega)]
      · rw [deadline, Nat.min_eq_right (by omega)]

/-- Both clients are being served, and one goes away. -/
example : ∃ (w : World) (h : List Nat), w.Reach h ∧ Known w (requestCtx id .background ann) ∧ Known w (requestCtx id .background bob) ∧
    (err w (requestCtx id .background ann)).isSome = true ∧ err w (requestCtx id .background bob) = none := by
  let w0 : World := { nodes := [], st := fun _ => none }
  let pa : Ctx := build id .background ((wraps id ann).take 4)
  let pb : Ctx := build id .background ((wraps id bob).take 4)
  let w4 := (((w0.create none pa).create none (.cancel 0 none pa)).create none pb).create none (.cancel 2 none pb)
  refine ⟨w4.cancel 0 ⟨true, 1⟩, [0], .cancel 0 _ (.create _ _ (.create _ _ (.create _ _ (.create _ _ .init ?_) ?_) ?_) ?_) ?_, ?_, ?_, ?_, ?_⟩
  · simp [pa, wraps, build, Ctx.Wrap.apply, Known]
  · exact ⟨rfl, by simp [pa, wraps, build, Ctx.Wrap.apply, Known]⟩
  · simp [pb, wraps, build, Ctx.Wrap.apply, Known]
  · exact ⟨rfl, by simp [pb, wraps, build, Ctx.Wrap.apply, Known]⟩
  · decide
  · exact ⟨rfl, rfl, trivial⟩
  · exact ⟨rfl, rfl, trivial⟩
  · rfl
  · rfl

/-- What net/http puts into the context, under keys of its own: the server and the address of this end. -/
example (q : String → String) (base : Ctx) (a : Arrival) : value (.user (.other 0)) (requestCtx q base a) = some (.user a.server) ∧ value (.user (.other 1)) (requestCtx q base a) = some (.user a.loc) := by
  simp [requestCtx, wraps, build, Ctx.Wrap.apply, value]

end Verif.Http.Requests

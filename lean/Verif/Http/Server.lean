import Verif.Http.Props
import Verif.Prom.Spec
/-!
# The server: registration, routing and metrics (http/server.go L22-101, L151-188, http/mux.go L16-46, http/metrics.go, http/monitor.go, http/api.go L26-74,
http/call.go L27-66)

* `net/http.ServeMux` is modelled as of Go 1.20 (the version in go.mod), as documented: registering an empty or a registered pattern panics; the route of a path is the pattern equal to it,
  else the longest pattern ending in a slash that the path starts with. Patterns for hosts are not matched by paths and never serve here. The redirects the mux
  answers itself (paths that are not clean or lack the final slash) are the parameter `redirect`.
* Go strings (methods, patterns, paths) are `GoStr`. Durations are given with the request.
* The handlers of one server run one after the other here; concurrent observations commute, and their races are the subject of C28.
-/
set_option autoImplicit false
namespace Verif.Http
open Verif.Strconv Verif.Enc Verif.Prom

/-- An ASCII text as a Go string. For the literals of http/server.go L66-75. -/
def gs (s : Str) : GoStr := s.map .rune

/-- A request: what the metrics use of it, and everything else a handler may depend on. http/server.go L44-64. -/
structure Req (F : Type) where
  method : GoStr
  path : GoStr
  body : Bytes := []
  other : Nat := 0
  /-- the time spent in the handler, as seen by `Handle` and by the server -/
  inner : F
  outer : F

/-- A handler: its calls on the writer; `none`: it panics. http/server.go L44-64, http/mux.go L20-41. -/
abbrev Handler (F : Type) := Req F → Option (List Op)

/-- A registered handler: `measured` if it was registered by `Server.Handle`, which measures it (http/mux.go L20-41). -/
structure Route (F : Type) where
  handler : Handler F
  measured : Bool

/-! ### the mux -/

/-- The registered patterns. http/server.go L22-24. -/
abbrev Mux (F : Type) := List (GoStr × Route F)

/-- The route of a pattern. Called in http/server.go L54-56. -/
def Mux.get {F : Type} : Mux F → GoStr → Option (Route F)
  | [], _ => none
  | (q, r) :: m, p => if q = p then some r else Mux.get m p

/-- `ServeMux.Handle` of `net/http` (Go 1.20). Called in http/server.go L66-75, http/mux.go L21. -/
def Mux.add {F : Type} (m : Mux F) (p : GoStr) (r : Route F) : Go (Mux F) :=
  if p = [] then .error .explicit
  else match m.get p with
    | some _ => .error .explicit
    | none => .ok (m ++ [(p, r)])

/-- A pattern for a subtree. For http/server.go L54-56. -/
def isTree (p : GoStr) : Bool := p.getLast? == some (.rune '/')

/-- The longest subtree pattern that the path starts with. For http/server.go L54-56. -/
def Mux.tree {F : Type} (path : GoStr) : Mux F → Option (GoStr × Route F)
  | [] => none
  | (q, r) :: m =>
    match Mux.tree path m with
    | some (q', r') => if isTree q && q.isPrefixOf path && q'.length < q.length then some (q, r) else some (q', r')
    | none => if isTree q && q.isPrefixOf path then some (q, r) else none

/-- `ServeMux.match` of `net/http` (Go 1.20). For http/server.go L54-56. -/
def Mux.find {F : Type} (m : Mux F) (path : GoStr) : Option (GoStr × Route F) :=
  match m.get path with
  | some r => some (path, r)
  | none => m.tree path

/-- `http.NotFound`. For http/server.go L54-56. -/
def notFoundOps : List Op :=
  [.add (lit "Content-Type") (lit "text/plain; charset=utf-8"), .add (lit "X-Content-Type-Options") (lit "nosniff"), .header 404, .write (utf8 (lit "404 page not found\n"))]

/-- `http.Redirect` with 301. For http/server.go L54-56. -/
def redirectOps (location : Str) (body : Bytes) : List Op := [.add (lit "Location") location, .header 301, .write body]

/-- What is used of `net/http`: the redirect of a path, given the patterns. For http/server.go L54-56. -/
structure MuxExt where
  redirect : List GoStr → GoStr → GoStr → Option (Str × Bytes)

/-! ### a request -/

/-- The labels of an observation (http/metrics.go L26-28). -/
def labelsOf (method path : GoStr) (code : Int) : List GoStr := [method, path, gs (fmtInt code)]

/-- What a request does: the answer, and the observations in order. `none`: the handler panics. (http/server.go L44-64, http/mux.go L20-41) -/
def Mux.serve {F : Type} (E : MuxExt) (m : Mux F) (r : Req F) : Option (Resp × List (List GoStr × F)) :=
  let plain := fun ops => (Http.serve ops).map fun a => (a.1, [(labelsOf r.method r.path a.2, r.outer)])
  match E.redirect (m.map (·.1)) r.method r.path with
  | some (l, b) => plain (redirectOps l b)
  | none =>
    match m.find r.path with
    | none => plain notFoundOps
    | some (p, t) =>
      match t.handler r with
      | none => none
      | some ops =>
        if t.measured then (serveNested ops).map fun a => (a.1, [(labelsOf r.method p a.2.2, r.inner), (labelsOf r.method r.path a.2.1, r.outer)])
        else plain ops

/-- The observations of a series of requests. http/server.go L59-63, http/mux.go L36-40. -/
def observations {F : Type} (E : MuxExt) (m : Mux F) (reqs : List (Req F)) : List (List GoStr × F) :=
  reqs.flatMap fun r => match m.serve E r with
    | none => []
    | some (_, obs) => obs

/-- The labels of `Metrics.Request` (http/metrics.go L13-16). -/
def labelNames : List Str := [lit "method", lit "path", lit "code"]

/-- `Metrics.Request` after a series of requests; `les` are its buckets. http/metrics.go L10-28. -/
def metrics {F : Type} (fo : FloatOps F) (isPrint : Char → Bool) (les : List F) (E : MuxExt) (m : Mux F) (reqs : List (Req F)) : Go (LMap (TS F)) :=
  runAll (fun m (o : List GoStr × F) => histObserve fo isPrint labelNames les m o.2 o.1) (fun _ => none) (observations E m reqs)

/-! ### registration -/

/-- What the openapi table says about a path: `Post` is set or not (openapi/path.go). -/
structure Doc where
  post : Bool
deriving DecidableEq

/-- A server: its routes, and `OpenAPI.Paths`. http/server.go L22-32. -/
structure Server (F : Type) where
  mux : Mux F
  docs : List (GoStr × Doc)

/-- The documentation of a path. http/mux.go L44, http/server.go L185. -/
def docOf : List (GoStr × Doc) → GoStr → Option Doc
  | [], _ => none
  | (q, d) :: l, p => if q = p then some d else docOf l p

/-- `OpenAPI.Paths[p] = d`. http/mux.go L44, http/server.go L185. -/
def setDoc (docs : List (GoStr × Doc)) (p : GoStr) (d : Doc) : List (GoStr × Doc) := (p, d) :: docs

/-- How a registration ends. http/api.go L26-67. -/
inductive Reg where
  | ok
  | err
  | panic
deriving DecidableEq

/-- The routes of a new server (http/server.go L66-86): `ready` is the stored code, `openapi` what `/openapi.json` does. -/
def newServer {F : Type} (ready : Req F → Int) (openapi : Handler F) : Server F :=
  { mux := [(gs (lit "/live"), ⟨fun _ => some liveOps, false⟩), (gs (lit "/ready"), ⟨fun r => some (readyOps (ready r)), false⟩), (gs (lit "/openapi.json"), ⟨openapi, false⟩)], docs := [] }

/-- Registering paths one after the other, up to the first panic (the loop of `RegisterAPI`, http/api.go L69-72, and `SetupMonitoring`, http/monitor.go L21-39). -/
def addAll {F : Type} (r : Route F) : List GoStr → Mux F → Mux F × Reg
  | [], m => (m, .ok)
  | p :: l, m => match m.add p r with
    | .error _ => (m, .panic)
    | .ok m => addAll r l m

/-- A call that registers handlers. http/mux.go L16-46, http/server.go L161-189, http/api.go L26-67, http/call.go L27-62, http/monitor.go L13-39. -/
inductive Call (F : Type) where
  /-- `Handle`, `HandleFunc` (http/mux.go L16-46) -/
  | handle (p : GoStr) (h : Handler F)
  /-- `HandleRequest` (http/server.go L161-189) -/
  | request (p : GoStr) (h : Handler F)
  /-- `RegisterAPI` for a valid template with these urls; `doc`: how `UpdateOpenAPI` ends (http/api.go L26-74, api/handler.go L121-182) -/
  | api (urls : List GoStr) (h : Handler F) (doc : Reg)
  /-- `CallHandler.Register` (http/call.go L27-62) -/
  | call (p : GoStr) (h : Handler F)
  /-- `SetupPrometheus` (http/monitor.go L13-18) -/
  | prometheus (p : GoStr) (h : Handler F)
  /-- `SetupMonitoring` (http/monitor.go L21-39) -/
  | monitoring (pfx : GoStr) (h : Handler F)

/-- The paths of `SetupMonitoring` below its prefix. http/monitor.go L21-39. -/
def monitored : List Str :=
  [lit "/pprof/", lit "/pprof/cmdline", lit "/pprof/profile", lit "/pprof/symbol", lit "/pprof/trace", lit "/goroutines"]

/-- One registration: the server afterwards, and how it ended. http/mux.go L16-46, http/server.go L161-189, http/api.go L26-67, http/call.go L27-62, http/monitor.go L13-39. -/
def register {F : Type} (s : Server F) : Call F → Server F × Reg
  | .handle p h => match s.mux.add p ⟨h, true⟩ with
    | .error _ => (s, .panic)
    | .ok m => ({ mux := m, docs := setDoc s.docs p ⟨false⟩ }, .ok)
  | .request p h => match s.mux.add p ⟨h, false⟩ with
    | .error _ => (s, .panic)
    | .ok m => ({ mux := m, docs := setDoc s.docs p ⟨true⟩ }, .ok)
  | .api urls h doc =>
    if urls = [] then (s, .err)
    else match addAll ⟨h, false⟩ urls s.mux with
      | (m, .ok) => if doc = .ok then ({ mux := m, docs := urls.foldl (fun d u => setDoc d u ⟨true⟩) s.docs }, .ok) else ({ s with mux := m }, doc)
      | (m, o) => ({ s with mux := m }, o)
  | .call p h => match s.mux.add p ⟨h, false⟩ with
    | .error _ => (s, .panic)
    | .ok m => ({ s with mux := m }, .ok)
  | .prometheus p h =>
    match s.mux.add (if p = [] then gs (lit "/metrics") else p) ⟨h, false⟩ with
    | .error _ => (s, .panic)
    | .ok m => ({ s with mux := m }, .ok)
  | .monitoring pfx h => let r := addAll ⟨h, false⟩ (monitored.map fun p => pfx ++ gs p) s.mux; ({ s with mux := r.1 }, r.2)

/-- Registrations one after the other (a panic is recovered by the caller, or ends the program). http/mux.go L16-46, http/server.go L161-189, http/api.go L26-67. -/
def registerAll {F : Type} : List (Call F) → Server F → Server F
  | [], s => s
  | c :: l, s => registerAll l (register s c).1

end Verif.Http

import Verif.Errors.Model
import Verif.Api.Spec
/-!
# The `http` package: the response wrapper, request handlers, API registration and the client (http/mux.go, http/server.go, http/api.go,
http/call.go, http/client.go)

* `net/http`'s `ResponseWriter` is modelled by `NetW`, as documented: the header is written once; codes outside 100-999 panic; 1xx codes other than 101
  are informational, and do not end the header; writing without a header writes 200; 1xx, 204 and 304 have no body; a handler that writes nothing is
  answered 200. Failures of the connection are not modelled; requests of method HEAD are in Http/Methods.lean, hijacking and flushing are in Http/Wrapped.lean.
* Bytes are the UTF-8 encoding of texts; `N.text` reads bytes as a text and `N.gz` gives the chunks `gzip.Writer` writes.
* What the text of an error is, other than that of `http.Error`, is opaque.
* The context, the log, the metrics' duration and the openapi table are not modelled here.
-/
set_option autoImplicit false
namespace Verif.Http
open Verif.Strconv Verif.Enc Verif.Api

/-- A Go `[]byte`; http/server.go L194-204. -/
abbrev Bytes := List UInt8

/-- Go errors; stacks and contexts do not matter here. http/error.go L18-21, ctx/error.go L27-31. -/
abbrev Error := Errors.Err Unit Unit

/-- UTF-8. The conversion `[]byte(s)` of valid text; http/server.go L211-221. -/
def utf8 (s : Str) : Bytes := s.flatMap String.utf8EncodeChar

/-- What is used of other packages. http/server.go L191-246, http/client.go L62-126. -/
structure NetExt where
  /-- bytes read as text -/
  text : Bytes → Str
  /-- the chunks written by a `gzip.Writer` -/
  gz : Bytes → List Bytes
  /-- `fmt.Sprintf("%d %s", code, http.StatusText(code))` -/
  codeText : Int → String
  /-- `fmt.Sprintf("%d %v", code, err)` -/
  codeMsg : Int → String → String
  /-- the text of the errors of `ReadFrom`, `Recv` and `Send` for a request -/
  readMsg : Bytes → String
  recvMsg : Bytes → String
  sendMsg : Bytes → String

/-! ### writers -/

/-- The methods of `http.ResponseWriter`; `none` is a panic. http/mux.go L60-75. -/
structure Writer (W : Type) where
  header : W → Int → Option W
  write : W → Bytes → Option W
  add : W → Str → Str → Option W

/-- The state of `net/http`'s writer: the header map, the informational codes sent, the status and the headers sent with it, and the body. http/mux.go L48-51. -/
structure NetW where
  hdr : List (Str × Str) := []
  infos : List Int := []
  status : Option Int := none
  sent : List (Str × Str) := []
  body : Bytes := []
deriving DecidableEq

/-- A code that is sent at once and does not end the header. http/mux.go L67. -/
def informational (code : Int) : Bool := 100 ≤ code && code ≤ 199 && code != 101

/-- `bodyAllowedForStatus` of `net/http`. http/mux.go L74. -/
def bodyAllowed (code : Int) : Bool := !(100 ≤ code && code ≤ 199) && code != 204 && code != 304

/-- `response.WriteHeader` of `net/http`. Called in http/mux.go L67. -/
def NetW.header (w : NetW) (code : Int) : Option NetW :=
  match w.status with
  | some _ => some w
  | none =>
    if code < 100 ∨ 999 < code then none
    else if informational code then some { w with infos := w.infos ++ [code] }
    else some { w with status := some code, sent := w.hdr }

/-- `response.Write` of `net/http`. Called in http/mux.go L74. -/
def NetW.write (w : NetW) (b : Bytes) : Option NetW :=
  let w := match w.status with
    | some _ => w
    | none => { w with status := some 200, sent := w.hdr }
  match w.status with
  | some code => if bodyAllowed code then some { w with body := w.body ++ b } else some w
  | none => some w

/-- `net/http`'s writer. http/mux.go L48-51. -/
def netW : Writer NetW := ⟨NetW.header, NetW.write, fun w k v => some { w with hdr := w.hdr ++ [(k, v)] }⟩

/-- What the client sees. http/client.go L62-73. -/
structure Resp where
  status : Int
  headers : List (Str × Str)
  body : Bytes
deriving DecidableEq

/-- The end of a request: without a header, 200 is sent. http/mux.go L20-41. -/
def NetW.finish (w : NetW) : Resp :=
  match w.status with
  | some code => ⟨code, w.sent, w.body⟩
  | none => ⟨200, w.hdr, []⟩

/-- `response` (http/mux.go L48-51). -/
structure Wrap (W : Type) where
  w : W
  code : Int
deriving DecidableEq

/-- `response.WriteHeader` (L60-68), `response.Write` (L70-75); `Header` is that of the embedded writer. -/
def wrap {W : Type} (O : Writer W) : Writer (Wrap W) where
  header r code := if r.code ≠ 0 then some r else (O.header r.w code).map fun w => ⟨w, code⟩
  write r b := (O.write r.w b).map fun w => ⟨w, if r.code = 0 then 200 else r.code⟩
  add r k v := (O.add r.w k v).map fun w => ⟨w, r.code⟩

/-- A call of a handler on its writer. http/server.go L191-246. -/
inductive Op where
  | header (code : Int)
  | write (b : Bytes)
  | add (k v : Str)
deriving DecidableEq

/-- One call. http/mux.go L60-75. -/
def step {W : Type} (O : Writer W) (w : W) : Op → Option W
  | .header code => O.header w code
  | .write b => O.write w b
  | .add k v => O.add w k v

/-- The calls of a handler, up to a panic. http/mux.go L20-41. -/
def run {W : Type} (O : Writer W) : List Op → W → Option W
  | [], w => some w
  | o :: l, w => (step O w o).bind fun w => run O l w

/-- A request through `Server.h` (http/server.go L44-64): what the client sees and the code measured. `none`: the handler panics, `net/http` drops the
connection and nothing is measured. -/
def serve (ops : List Op) : Option (Resp × Int) := (run (wrap netW) ops ⟨{}, 0⟩).map fun r => (r.w.finish, r.code)

/-- The same for a handler registered with `Server.Handle` (http/mux.go L20-41), which wraps the writer again: the code measured by the inner one as well. -/
def serveNested (ops : List Op) : Option (Resp × Int × Int) :=
  (run (wrap (wrap netW)) ops ⟨⟨{}, 0⟩, 0⟩).map fun r => (r.w.w.finish, r.w.code, r.code)

/-! ### request handlers (http/server.go L191-246) -/

/-- How a call ends. http/server.go L194-204. -/
inductive Done (α : Type) where
  | ok (a : α)
  | err (e : Error)
  | panic

/-- `err.Error()` as text. http/server.go L212. -/
def errText (N : NetExt) (e : Error) : Str := (e.msg N.codeText N.codeMsg).toList

/-- `json.Marshal` of `map[string]any{"error": msg, "tracking": tid}`. http/server.go L211-214. -/
def clientError (msg tid : Str) : Str := lit "{\"error\":" ++ jsonStr msg ++ lit ",\"tracking\":" ++ jsonStr tid ++ lit "}"

/-- `json.Marshal` of `map[string]any{"tracking": tid}`. http/server.go L217-220. -/
def internalError (tid : Str) : Str := lit "{\"tracking\":" ++ jsonStr tid ++ lit "}"

/-- `strings.Contains`. Called in http/server.go L233. -/
def contains (sub : Str) : Str → Bool
  | [] => sub.isEmpty
  | c :: cs => sub.isPrefixOf (c :: cs) || contains sub cs

/-- The calls `handleRequest` makes on the writer, given what `f` returned; `none`: `f` panicked. `accept` is the `Accept` header. http/server.go L205-244. -/
def requestOps (N : NetExt) (tid accept : Str) : Done Bytes → Option (List Op)
  | .panic => none
  | .err e =>
    let code := Errors.errorCode (some e) 500
    some [.header code, .write (utf8 (if code < 500 then clientError (errText N e) tid else internalError tid))]
  | .ok out =>
    if out.length = 0 then some [.header 204]
    else if out.length > 16 * 1024 ∧ contains (lit "gzip") accept = true then
      some (.add (lit "Content-Type") (lit "application/json") :: .add (lit "Content-Encoding") (lit "gzip") :: (N.gz out).map .write)
    else some [.add (lit "Content-Type") (lit "application/json"), .write out]

/-- What `handleRequest` gives `f`'s result: `body` is what reading the body gave, if there is one. http/server.go L194-204. -/
def readBody (N : NetExt) (f : Bytes → Done Bytes) : Option (Option Bytes) → Done Bytes
  | none => f []
  | some (some b) => f b
  | some none => .err (Errors.httpNewErrorf () () 400 1 (N.readMsg []) [])

/-- The whole of a request. http/server.go L191-246. -/
def handleRequest (N : NetExt) (tid accept : Str) (f : Bytes → Done Bytes) (body : Option (Option Bytes)) : Option (Resp × Int) :=
  (requestOps N tid accept (readBody N f body)).bind serve

/-- `CallHandler.Register` (http/call.go L27-62): the calls on the writer. -/
def callOps : Done Bytes → Option (List Op)
  | .panic => none
  | .err e => some [.header (Errors.errorCode (some e) 500)]
  | .ok out => if out.length = 0 then some [.header 204] else some [.header 200, .write out]

/-- `/live` and `/ready` (http/server.go L66-73); `ready` is the stored code. -/
def liveOps : List Op := [.header 204]
/-- The handler of `/ready` (http/server.go L71-73). -/
def readyOps (ready : Int) : List Op := [.header ready]

/-! ### API handlers (http/api.go L26-74) -/

/-- The function `RegisterAPI` builds (L31-63); `exec` is the object's `Do`, `now` the content of the template. -/
def apiFunc {X : Ext} [DecidableEq X.F] [DecidableEq X.T] (N : NetExt) (O : Order) (h : AHandler) (fs : Fields) (now : FVals X fs) (exec : FVals X fs → Done (FVals X fs))
    (body : Bytes) : Done Bytes :=
  match readFrom (N.text body) with
  | none => .err (Errors.newErrorf () () 2 (N.readMsg body) [])
  | some d =>
    match recv O h fs now { data := d } with
    | .err => .err (Errors.httpNewErrorf () () 400 3 (N.recvMsg body) [])
    | .panic => .panic
    | .ok obj =>
      match exec obj with
      | .err e => .err e
      | .panic => .panic
      | .ok obj =>
        match send O fs obj h.outs [] with
        | .err => .err (Errors.newErrorf () () 4 (N.sendMsg body) [])
        | .panic => .panic
        | .ok d =>
          match encode (.map d) with
          | .error _ => .panic
          | .ok s => .ok (utf8 s)

/-- `RegisterAPI`: the paths registered, or an error. http/api.go L26-67. -/
def registerAPI {X : Ext} [DecidableEq X.F] [DecidableEq X.T] (U : Str → Option Str) (t : Template X) : Option (AHandler × List Str) :=
  match newHandler U t with
  | none => none
  | some h => if h.urls = [] then none else some (h, h.urls)

/-! ### the client (http/client.go) -/

/-- `Client.Do` (L62-73): `res` is the response, or nothing if the request failed. -/
def clientDo (N : NetExt) (res : Option Resp) : Done Resp :=
  match res with
  | none => .err (Errors.newErrorf () () 5 (N.sendMsg []) [.leaf 6 (N.sendMsg [])])
  | some r => if r.status = 200 ∨ r.status = 204 then .ok r else .err (.httpErr r.status (some (.leaf 7 (N.codeText r.status))))

/-- Changing the field `i` by `g`, keeping what it did even if it failed. `reflect`, for api/handler.go L262-272. -/
def modObj {X : Ext} (g : FieldInfo → (t : Ty) → Val X t → Val X t × Status) : (fs : Fields) → Nat → FVals X fs → FVals X fs × Status
  | .nil, _, v => (v, .panic)
  | .cons f t _, 0, (v, vs) => let r := g f t v; ((r.1, vs), r.2)
  | .cons _ _ fs, i + 1, (v, vs) => let r := modObj g fs i vs; ((v, r.1), r.2)

/-- `JSON.Unmarshal` (api/json.go L75-89) of one field, with what is left in it. -/
def unmarshalObj {X : Ext} (O : Order) (data : List (Str × Node X)) (name : Str) (f : FieldInfo) (t : Ty) (v : Val X t) : Val X t × Status :=
  match lookupKey name data with
  | none => (v, .ok)
  | some n => if f.exported then let r := Enc.unmarshal (encH X) O t n v; (r.val, r.st) else (v, .panic)

/-- `Client.Recv` (api/handler.go L262-272) with what is left in the object. -/
def recvObj {X : Ext} (O : Order) (fs : Fields) (data : List (Str × Node X)) : List HField → FVals X fs → FVals X fs × Status
  | [], v => (v, .ok)
  | f :: l, v =>
    let r := modObj (unmarshalObj O data f.tag.name) fs f.i v
    match r.2 with
    | .ok => recvObj O fs data l r.1
    | s => (r.1, s)

/-- `Client.API` (http/client.go L75-126): the object afterwards, and how the call ended. `net` is the server (and the network): it is given the path and the
body. Rebasing of the url, and building the request, are assumed not to fail. -/
def clientAPI {X : Ext} [DecidableEq X.F] [DecidableEq X.T] (N : NetExt) (U : Str → Option Str) (O : Order) (fs : Fields) (net : Str → Bytes → Option Resp)
    (obj : FVals X fs) : FVals X fs × Done Unit :=
  match newHandler (X := X) U (.ptr (.struct fs) (some obj)) with
  | none => (obj, .err (Errors.newErrorf () () 8 (N.sendMsg []) []))
  | some h =>
    match send O fs obj h.ins [] with
    | .err => (obj, .err (Errors.newErrorf () () 9 (N.sendMsg []) []))
    | .panic => (obj, .panic)
    | .ok d =>
      match encode (.map d) with
      | .error _ => (obj, .err (Errors.newErrorf () () 10 (N.sendMsg []) [.leaf 11 (N.sendMsg [])]))
      | .ok s =>
        match h.urls with
        | [] => (obj, .panic)
        | u :: _ =>
          match clientDo N (net u (utf8 s)) with
          | .panic => (obj, .panic)
          | .err e => (obj, .err (Errors.newErrorf () () 12 (N.sendMsg []) [e]))
          | .ok r =>
            if r.status = 204 then (obj, .ok ())
            else
              match readFrom (N.text r.body) with
              | none => (obj, .err (Errors.newErrorf () () 13 (N.sendMsg []) [.leaf 14 (N.sendMsg [])]))
              | some d =>
                let q := recvObj O fs d h.outs obj
                (q.1, match q.2 with | .ok => .ok () | .err => .err (Errors.newErrorf () () 15 (N.sendMsg []) []) | .panic => .panic)

end Verif.Http

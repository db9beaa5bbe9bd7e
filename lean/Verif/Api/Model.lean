import Verif.Enc.Unmarshal
/-!
# The `api` package: handlers, and their requests and responses over JSON (api/handler.go, api/tag.go, api/json.go)

* A handler type is a struct of fields `fs`, an object of it an `FVals X fs`.
* `url.Parse` is a parameter: it gives the path of a text it accepts.
* The template is read when the handler is built, to see which fields are set, and again by every `Recv`, since the handler keeps references into it
  (`initV.Field(i)` of an addressable struct): `now` is its content at that time.
* Log output and the text of errors are not modelled.
-/
set_option autoImplicit false
namespace Verif.Api
open Verif.Strconv Verif.Enc

/-! ### tags (api/tag.go) -/

/-- `strings.Split(s, ",")`. Standard library, called in api/tag.go L39. -/
def splitComma : Str → List Str
  | [] => [[]]
  | c :: cs =>
    if c = ',' then [] :: splitComma cs
    else match splitComma cs with
      | [] => [[c]]
      | w :: ws => (c :: w) :: ws

/-- `tag` (L12-19); `url` holds the path. -/
structure ATag where
  name : Str
  auth : Bool := false
  isIn : Bool := false
  isOut : Bool := false
  required : Bool := false
  url : Option Str := none
deriving DecidableEq

/-- `tagName` (L21-36). -/
def tagName (f : FieldInfo) : Str :=
  let name := if f.enc ≠ [] then (cutComma f.enc).1 else if f.tag ≠ [] then (cutComma f.tag).1 else []
  if name = [] then f.name else name

/-- One word of the `api` tag (L53-70). -/
def addWord (t : ATag) (w : Str) : Option ATag :=
  if w = lit "in" then some { t with isIn := true }
  else if w = lit "out" then some { t with isOut := true }
  else if w = lit "both" then some { t with isIn := true, isOut := true }
  else if w = lit "required" then some { t with required := true }
  else if w = lit "auth" then some { t with auth := true }
  else if w = [] then some t
  else none

/-- The words in order, stopping at an invalid one. api/tag.go L52-70. -/
def addWords (t : ATag) : List Str → Option ATag
  | [] => some t
  | w :: ws => (addWord t w).bind fun t => addWords t ws

/-- The `url` tag (L44-50): nothing if it can not be parsed. -/
def parseUrl (U : Str → Option Str) (f : FieldInfo) : Option (Option Str) :=
  if f.url = [] then some none else (U f.url).map some

/-- `parseTags` (L38-72). -/
def parseTags (U : Str → Option Str) (f : FieldInfo) : Option ATag :=
  (parseUrl U f).bind fun url => addWords { name := tagName f, url := url } (splitComma f.api)

/-! ### fields by index -/

/-- `v.Field(i)`: the description, the type and the value. `reflect`, called in api/handler.go L208-272. -/
def getField {X : Ext} : (fs : Fields) → Nat → FVals X fs → Option (FieldInfo × (t : Ty) × Val X t)
  | .nil, _, _ => none
  | .cons f t _, 0, (v, _) => some (f, ⟨t, v⟩)
  | .cons _ _ fs, i + 1, (_, vs) => getField fs i vs

/-- Changing the field `i` by `g`, which may fail; there is no such field: panic. `reflect`, for api/handler.go L230-248 and L262-272. -/
def modField {X : Ext} (g : FieldInfo → (t : Ty) → Val X t → Res (Val X t)) : (fs : Fields) → Nat → FVals X fs → Res (FVals X fs)
  | .nil, _, _ => .panic
  | .cons f t _, 0, (v, vs) => (g f t v).bind fun v => .ok (v, vs)
  | .cons _ _ fs, i + 1, (v, vs) => (modField g fs i vs).bind fun vs => .ok (v, vs)

/-- `v.Field(i).Set(src.Field(i))`: panics if the field is not exported. `reflect`, called in api/handler.go L226-229. -/
def copyField {X : Ext} : (fs : Fields) → Nat → (src dst : FVals X fs) → Res (FVals X fs)
  | .nil, _, _, _ => .panic
  | .cons f _ _, 0, (s, _), (_, ds) => if f.exported then .ok (s, ds) else .panic
  | .cons _ _ fs, i + 1, (_, ss), (d, ds) => (copyField fs i ss ds).bind fun ds => .ok (d, ds)

/-- Equality as a test. For `isZero`; api/handler.go L81, L236. -/
def same {α : Type} [DecidableEq α] (a b : α) : Bool := decide (a = b)

/-- A nil `any`. For `isZero`; api/handler.go L81, L236. -/
def anyNil {X : Ext} : Any X → Bool
  | .nil => true
  | _ => false

mutual
/-- `reflect.Value.IsZero`. Called in api/handler.go L81 and L236. -/
def isZero {X : Ext} [DecidableEq X.F] [DecidableEq X.T] : (t : Ty) → Val X t → Bool
  | .bool, v => !(v : Bool)
  | .int w, v => same (α := BitVec w.bits) v 0
  | .uint w, v => same (α := BitVec w.bits) v 0
  | .float64, v => same (α := X.F) v X.fZero
  | .float32, v => same (α := X.F) v X.fZero
  | .string, v => same (α := Str) v []
  | .any, v => anyNil v
  | .node, v => (v : Option (Node X)).isNone
  | .time, v => same (α := X.T) v X.tZero
  | .encTime, v => same (α := X.T) v X.tZero
  | .encDur, v => same (α := Int) v 0
  | .func, v => (v : Option Nat).isNone
  | .chan, v => (v : Option Nat).isNone
  | .iface, _ => true
  | .ptr t, v => (v : Option (Val X t)).isNone
  | .slice t, v => (v : Option (List (Val X t))).isNone
  | .array n t, v => (v : { l : List (Val X t) // l.length = n }).1.all fun x => isZero t x
  | .map _ t, v => (v : Option (List (Str × Val X t))).isNone
  | .struct fs, v => isZeros fs v
/-- all fields zero. api/handler.go L81, L236. -/
def isZeros {X : Ext} [DecidableEq X.F] [DecidableEq X.T] : (fs : Fields) → FVals X fs → Bool
  | .nil, _ => true
  | .cons _ t fs, (v, vs) => isZero t v && isZeros fs vs
end

/-! ### handlers (api/handler.go) -/

/-- `field` (L196-199). -/
structure HField where
  i : Nat
  tag : ATag
deriving DecidableEq

/-- `Handler` (L13-21); of `init` the indices, the values being in the template. -/
structure AHandler where
  auth : Option HField := none
  init : List Nat := []
  ins : List HField := []
  outs : List HField := []
  urls : List Str := []
deriving DecidableEq

/-- What is passed to `NewHandler`: not a pointer, or a pointer, possibly nil, to a value of type `t`. api/handler.go L36-45. -/
inductive Template (X : Ext) where
  | other
  | ptr (t : Ty) (v : Option (Val X t))

/-- One field (L57-86). -/
def addField (h : AHandler) (i : Nat) (tag : ATag) (zero : Bool) : Option AHandler :=
  if tag.auth && h.auth.isSome then none
  else some {
    auth := if tag.auth then some ⟨i, tag⟩ else h.auth
    init := if !tag.isIn && !tag.isOut && tag.url.isNone && !zero then h.init ++ [i] else h.init
    ins := if tag.isIn then h.ins ++ [⟨i, tag⟩] else h.ins
    outs := if tag.isOut then h.outs ++ [⟨i, tag⟩] else h.outs
    urls := match tag.url with
      | some u => h.urls ++ [u]
      | none => h.urls }

/-- The fields in order (L56-86). -/
def scan {X : Ext} [DecidableEq X.F] [DecidableEq X.T] (U : Str → Option Str) : (fs : Fields) → FVals X fs → Nat → AHandler → Option AHandler
  | .nil, _, _, h => some h
  | .cons f t fs, (v, vs), i, h => (parseTags U f).bind fun tag => (addField h i tag (isZero t v)).bind fun h => scan U fs vs (i + 1) h

/-- What the template points to: a nil pointer is replaced by a fresh struct (L42-45). -/
def content {X : Ext} (fs : Fields) (v : Option (Val X (.struct fs))) : FVals X fs :=
  match v with
  | some v => v
  | none => zeroFields X fs

/-- `NewHandler` (L36-89); an error is `none`. -/
def newHandler {X : Ext} [DecidableEq X.F] [DecidableEq X.T] (U : Str → Option Str) : Template X → Option AHandler
  | .ptr (.struct fs) v => scan U fs (content fs v) 0 {}
  | _ => none

/-- What a request carries (api/json.go L14-21). -/
structure Req (X : Ext) where
  data : List (Str × Node X)
  uid : Option (Node X) := none

/-- The handler used for nodes: no callback. api/json.go L53-89. -/
def encH (X : Ext) : Handler X := ⟨none⟩

/-- A call of `Unmarshal` as a result. api/json.go L53-89. -/
def outRes {X : Ext} {α : Type} (r : Out X α) : Res α :=
  match r.st with
  | .ok => .ok r.val
  | .err => .err
  | .panic => .panic

/-- `JSON.Unmarshal` (api/json.go L75-89): missing keys leave the field alone; an unexported field panics in `Interface`. -/
def unmarshalField {X : Ext} (O : Order) (data : List (Str × Node X)) (name : Str) (f : FieldInfo) (t : Ty) (v : Val X t) : Res (Val X t) :=
  match lookupKey name data with
  | none => .ok v
  | some n => if f.exported then outRes (Enc.unmarshal (encH X) O t n v) else .panic

/-- `JSON.Marshal` (api/json.go L63-73) of one field. -/
def marshalField {X : Ext} (O : Order) (f : FieldInfo) (t : Ty) (v : Val X t) : Res (Node X) :=
  if f.exported then marshal O t v else .panic

/-- `JSON.Auth` (api/json.go L53-61) into the field. -/
def authField {X : Ext} (O : Order) (uid : Option (Node X)) (required : Bool) (f : FieldInfo) (t : Ty) (v : Val X t) : Res (Val X t) :=
  match uid with
  | none | some .nil => if required then .err else .ok v
  | some n => if f.exported then outRes (Enc.unmarshal (encH X) O t n v) else .panic

/-- the initial values (L226-229) -/
def recvInit {X : Ext} (fs : Fields) (now : FVals X fs) : List Nat → FVals X fs → Res (FVals X fs)
  | [], v => .ok v
  | i :: l, v => (copyField fs i now v).bind fun v => recvInit fs now l v

/-- the inputs (L230-239) -/
def recvIns {X : Ext} [DecidableEq X.F] [DecidableEq X.T] (O : Order) (fs : Fields) (data : List (Str × Node X)) : List HField → FVals X fs → Res (FVals X fs)
  | [], v => .ok v
  | f :: l, v => (modField (unmarshalField O data f.tag.name) fs f.i v).bind fun v =>
    if f.tag.required && (match getField fs f.i v with | some (_, ⟨t, x⟩) => isZero t x | none => false) then .err
    else recvIns O fs data l v

/-- `Server.Recv` (L221-248). -/
def recv {X : Ext} [DecidableEq X.F] [DecidableEq X.T] (O : Order) (h : AHandler) (fs : Fields) (now : FVals X fs) (req : Req X) : Res (FVals X fs) :=
  (recvInit fs now h.init (zeroFields X fs)).bind fun v => (recvIns O fs req.data h.ins v).bind fun v =>
    match h.auth with
    | none => .ok v
    | some a => modField (authField O req.uid a.tag.required) fs a.i v

/-- `Server.Send` (L250-260) and `Client.Send` (L209-219), over the out and in fields. -/
def send {X : Ext} (O : Order) (fs : Fields) (obj : FVals X fs) : List HField → List (Str × Node X) → Res (List (Str × Node X))
  | [], data => .ok data
  | f :: l, data =>
    match getField fs f.i obj with
    | none => .panic
    | some (info, ⟨t, x⟩) => (marshalField O info t x).bind fun n => send O fs obj l (insertKey f.tag.name n data)

/-- `Client.Recv` (L262-272). -/
def clientRecv {X : Ext} (O : Order) (fs : Fields) (data : List (Str × Node X)) : List HField → FVals X fs → Res (FVals X fs)
  | [], v => .ok v
  | f :: l, v => (modField (unmarshalField O data f.tag.name) fs f.i v).bind fun v => clientRecv O fs data l v

/-- `JSON.ReadFrom` (api/json.go L31-51) once the body is read: nothing gives the empty object, anything but an object is an error. -/
def readFrom {X : Ext} (body : Str) : Option (List (Str × Node X)) :=
  if body = [] then some []
  else match decode body with
    | some (some (.map m)) => some m
    | _ => none

/-- Data sent as the JSON text of an object and read by the other side (`JSON.Encode`, then `ReadFrom`). api/json.go L31-51. -/
def overJson {X : Ext} (data : List (Str × Node X)) : Res (List (Str × Node X)) :=
  match encode (.map data) with
  | .error _ => .panic
  | .ok s => match readFrom s with
    | some d => .ok d
    | none => .err

end Verif.Api

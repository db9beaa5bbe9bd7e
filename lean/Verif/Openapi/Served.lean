import Verif.Openapi.Handler
import Verif.Enc.SpaceProps
/-!
# `/openapi.json` (http/server.go L75-87, api/openapi/openapi.go, path.go, schema.go L19-35)

The Go types of the documentation, their values, and the text that is served. A `*Schema` may hold others, without a bound; `schemaTy n` is the type cut off at depth `n`: a value
whose depth is less than `n` is a value of it, and marshalled in the same way for every such `n`. Maps are key-sorted lists.
-/
set_option autoImplicit false
namespace Verif.Openapi.Served
open Verif.Strconv Verif.Enc Verif.Api Verif.Openapi

/-! ### types -/

/-- A field with a `json` tag. -/
def fld (name tag : String) : FieldInfo := { name := lit name, tag := lit tag }

/-- `Schema` (schema.go L19-35). -/
def schemaTy : Nat → Fields
  | 0 => .nil
  | n + 1 =>
    .cons (fld "Type" "type,omitempty") .string
    (.cons (fld "Format" "format,omitempty") .string
    (.cons (fld "Required" "required,omitempty") (.slice .string)
    (.cons (fld "Properties" "properties,omitempty") (.map .str (.ptr (.struct (schemaTy n))))
    (.cons (fld "AdditionalProps" "additionalProperties,omitempty") (.ptr (.struct (schemaTy n)))
    (.cons (fld "Description" "description,omitempty") .string
    (.cons (fld "Example" "example,omitempty") .any
    (.cons (fld "Items" "items,omitempty") (.ptr (.struct (schemaTy n)))
    (.cons (fld "Default" "default,omitempty") .string
    (.cons (fld "Enum" "enum,omitempty") (.slice .string)
    (.cons (fld "AllOf" "allOf,omitempty") (.slice (.ptr (.struct (schemaTy n))))
    (.cons (fld "Reference" "$ref,omitempty") .string .nil)))))))))))

/-- `MediaType` and `Content` (path.go L34-36, L48-50). -/
def mediaTy (n : Nat) : Fields := .cons (fld "Schema" "schema") (.ptr (.struct (schemaTy n))) .nil

/-- `RequestBody` (path.go L29-32). -/
def bodyTy (n : Nat) : Fields := .cons (fld "Content" "content") (.map .str (.struct (mediaTy n))) (.cons (fld "Required" "required") .bool .nil)

/-- `Response` (path.go L43-46). -/
def responseTy (n : Nat) : Fields :=
  .cons (fld "Description" "description") .string (.cons (fld "Content" "content,omitempty") (.map .str (.struct (mediaTy n))) .nil)

/-- `Server` (path.go L38-41). -/
def serverTy : Fields := .cons (fld "URL" "url") .string (.cons (fld "Description" "description,omitempty") .string .nil)

/-- `Parameter` (openapi.go L54-61). -/
def parameterTy (n : Nat) : Fields :=
  .cons (fld "Name" "name") .string (.cons (fld "In" "in") .string (.cons (fld "Description" "description,omitempty") .string (.cons (fld "Required" "required,omitempty") .bool
    (.cons (fld "Deprecated" "deprecated,omitempty") .bool (.cons (fld "Schema" "schema,omitempty") (.ptr (.struct (schemaTy n))) .nil)))))

/-- `PathItem` (path.go L9-18). -/
def itemTy (n : Nat) : Fields :=
  .cons (fld "Summary" "summary") .string (.cons (fld "Description" "description") .string
    (.cons (fld "RequestBody" "requestBody,omitempty") (.ptr (.struct (bodyTy n))) (.cons (fld "Servers" "servers,omitempty") (.slice (.struct serverTy))
    (.cons (fld "Responses" "responses") (.map .str (.struct (responseTy n))) (.cons (fld "Security" "security,omitempty") (.slice (.map .str .any))
    (.cons (fld "Deprecated" "deprecated,omitempty") .bool (.cons (fld "Parameters" "parameters,omitempty") (.slice (.struct (parameterTy n))) .nil)))))))

/-- `Path` (path.go L3-7). -/
def pathTy (n : Nat) : Fields :=
  .cons (fld "Post" "post,omitempty") (.ptr (.struct (itemTy n))) (.cons (fld "Get" "get,omitempty") (.ptr (.struct (itemTy n)))
    (.cons (fld "Upgrade" "upgrade,omitempty") (.ptr (.struct (itemTy n))) .nil))

/-- `SecurityScheme` (openapi.go L42-52). -/
def securityTy : Fields :=
  .cons (fld "Type" "type") .string (.cons (fld "Description" "description") .string (.cons (fld "Scheme" "scheme,omitempty") .string
    (.cons (fld "BearerFormat" "bearerFormat,omitempty") .string (.cons (fld "In" "in,omitempty") .string (.cons (fld "Name" "name,omitempty") .string .nil)))))

/-- `Component` (openapi.go L36-40). -/
def componentTy (n : Nat) : Fields :=
  .cons (fld "SecurityScheme" "securitySchemes") (.map .str (.ptr (.struct securityTy))) (.cons (fld "Parameters" "parameters,omitempty") (.map .str (.ptr (.struct (parameterTy n))))
    (.cons (fld "Schemas" "schemas,omitempty") (.map .str (.ptr (.struct (schemaTy n)))) .nil))

/-- The license (openapi.go L28-30). -/
def licenseTy : Fields := .cons (fld "Name" "name,omitempty") .string .nil

/-- `Info` (openapi.go L25-31). -/
def infoTy : Fields := .cons (fld "Version" "version,omitempty") .string (.cons (fld "Title" "title,omitempty") .string (.cons (fld "License" "license,omitempty") (.struct licenseTy) .nil))

/-- `Service` (openapi.go L23-34). -/
def serviceTy (n : Nat) : Fields :=
  .cons (fld "OpenAPI" "openapi") .string (.cons (fld "Info" "info") (.struct infoTy) (.cons (fld "Paths" "paths") (.map .str (.ptr (.struct (pathTy n))))
    (.cons (fld "Components" "components") (.struct (componentTy n)) .nil)))

section
variable {X : Ext}

/-! ### values -/

/-- A `Schema` with these fields, and no default or enum, which are never set. schema.go L19-35. -/
def schemaVal (n : Nat) (ty fmt : Str) (req : Option (List Str)) (props : Option (List (Str × Option (FVals X (schemaTy n))))) (addl : Option (FVals X (schemaTy n))) (desc : Str)
    (ex : Any X) (items : Option (FVals X (schemaTy n))) (allOf : Option (List (Option (FVals X (schemaTy n))))) (ref : Str) : FVals X (schemaTy (n + 1)) :=
  ((ty, fmt, req, props, addl, desc, ex, items, ([] : Str), (none : Option (List Str)), allOf, ref, ()) : Str × Str × Option (List Str) × Option (List (Str × Option (FVals X (schemaTy n)))) ×
    Option (FVals X (schemaTy n)) × Str × Any X × Option (FVals X (schemaTy n)) × Str × Option (List Str) × Option (List (Option (FVals X (schemaTy n)))) × Str × Unit)

mutual
/-- How deep schemas are nested. schema.go L19-35. -/
def deep : Schema → Nat
  | .leaf _ _ _ => 0
  | .ref _ _ => 1
  | .array _ _ s | .map _ _ s => deep s + 1
  | .object _ _ ps => propsDeep ps + 1
/-- The deepest of the properties. schema.go L19-35. -/
def propsDeep : List (Str × Schema) → Nat
  | [] => 0
  | (_, s) :: ps => max (deep s) (propsDeep ps)
end

mutual
/-- The Go value of a schema: what `schemaFromType` returns (schema.go L46-252), without examples. -/
def val (X : Ext) : (n : Nat) → Schema → FVals X (schemaTy n)
  | 0, _ => ()
  | n + 1, .leaf ty fmt desc => schemaVal n ty fmt none none none desc .nil none none []
  | 0 + 1, .ref _ desc => schemaVal 0 [] [] none none none desc .nil none none []
  | n + 1 + 1, .ref key desc => schemaVal (n + 1) [] [] none none none desc .nil none (some [some (schemaVal n [] [] none none none [] .nil none none (lit "#/components/schemas/" ++ key))]) []
  | n + 1, .array fmt desc s => schemaVal n (lit "array") fmt none none none desc .nil (some (val X n s)) none []
  | n + 1, .map fmt desc s => schemaVal n (lit "object") fmt none none (some (val X n s)) desc .nil none none []
  | n + 1, .object fmt desc ps => schemaVal n (lit "object") fmt none (some (propsVal X n ps)) none desc .nil none none []
/-- The properties. schema.go L202-217. -/
def propsVal (X : Ext) (n : Nat) : List (Str × Schema) → List (Str × Option (FVals X (schemaTy n)))
  | [] => []
  | (k, s) :: ps => (k, some (val X n s)) :: propsVal X n ps
end

/-- What is documented for a path: nothing (`Handle`, http/mux.go L43-45), that there is an object in and one out (`HandleRequest`, http/server.go L163-188), or an API, with the
package and name of its type (api/handler.go L121-182). -/
inductive Doc where
  | bare
  | request
  | api (pkg name : Str) (item : PathItem)

/-- A service: the title, the paths, the schemas. openapi.go L23-40. -/
structure Service where
  title : Str
  paths : List (Str × Doc)
  schemas : Table

/-- The content of a body that is JSON. api/handler.go L152-170, http/server.go L165-183. -/
def mediaVal (n : Nat) (v : FVals X (schemaTy n)) : Option (List (Str × FVals X (mediaTy n))) := some [(lit "application/json", ((some v, ()) : Option (FVals X (schemaTy n)) × Unit))]

/-- The security of a path (`SetJWT`, path.go L21-28). -/
def securityVal : Option Bool → Option (List (Option (List (Str × Any X))))
  | none => none
  | some true => some [some [(lit "jwt", .list [])]]
  | some false => some [some [(lit "jwt", .list [])], some []]

/-- A `PathItem` (api/handler.go L151-173, http/server.go L163-184). -/
def itemVal (n : Nat) (summary : Str) (i o : FVals X (schemaTy n)) (sec : Option Bool) : FVals X (itemTy n) :=
  ((summary, ([] : Str), some (mediaVal n i, false, ()), none, some [(lit "200", (([] : Str), mediaVal n o, ()))], securityVal sec, false, none, ()) :
    Str × Str × Option (Option (List (Str × FVals X (mediaTy n))) × Bool × Unit) × Option (List (FVals X serverTy)) × Option (List (Str × (Str × Option (List (Str × FVals X (mediaTy n))) × Unit))) ×
      Option (List (Option (List (Str × Any X)))) × Bool × Option (List (FVals X (parameterTy n))) × Unit)

/-- The schema of the object that goes in or out (api/handler.go L122-131). The list of required fields is nil if there are none. -/
def objectVal (n : Nat) (name : Str) (req : List Str) (ps : List (Str × Schema)) : FVals X (schemaTy (n + 1)) :=
  schemaVal n (lit "object") name (if req = [] then none else some req) (some (propsVal X n ps)) none [] .nil none none []

/-- A `Path` (http/mux.go L43, http/server.go L185-187, api/handler.go L176-178). -/
def pathVal (n : Nat) : Doc → FVals X (pathTy (n + 1))
  | .bare => ((none, none, none, ()) : Option (FVals X (itemTy (n + 1))) × Option (FVals X (itemTy (n + 1))) × Option (FVals X (itemTy (n + 1))) × Unit)
  | .request => ((some (itemVal (n + 1) [] (schemaVal n (lit "object") [] none none none [] .nil none none []) (schemaVal n (lit "object") [] none none none [] .nil none none []) none), none, none, ()) :
      Option (FVals X (itemTy (n + 1))) × Option (FVals X (itemTy (n + 1))) × Option (FVals X (itemTy (n + 1))) × Unit)
  | .api pkg name item => ((some (itemVal (n + 1) (pkg ++ lit "." ++ name) (objectVal n name item.required item.ins) (objectVal n name [] item.outs) item.security), none, none, ()) :
      Option (FVals X (itemTy (n + 1))) × Option (FVals X (itemTy (n + 1))) × Option (FVals X (itemTy (n + 1))) × Unit)

/-- The security scheme every service has (openapi.go L13-19). -/
def jwtVal : FVals X securityTy := ((lit "http", [], lit "bearer", lit "JWT", [], [], ()) : Str × Str × Str × Str × Str × Str × Unit)

/-- The service as `NewService` makes it (openapi.go L3-21), with its paths and schemas. -/
def serviceVal (n : Nat) (s : Service) : FVals X (serviceTy (n + 1)) :=
  ((lit "3.0.0", ((lit "0.0", s.title, ((lit "private", ()) : Str × Unit), ()) : Str × Str × FVals X licenseTy × Unit), some (s.paths.map fun p => (p.1, some (pathVal n p.2))),
      ((some [(lit "jwt", some jwtVal)], none, (if s.schemas = [] then none else some (propsVal X (n + 1) s.schemas)), ()) :
        Option (List (Str × Option (FVals X securityTy))) × Option (List (Str × Option (FVals X (parameterTy (n + 1))))) × Option (List (Str × Option (FVals X (schemaTy (n + 1))))) × Unit), ()) :
    Str × FVals X infoTy × Option (List (Str × Option (FVals X (pathTy (n + 1))))) × FVals X (componentTy (n + 1)) × Unit)

/-- What `/openapi.json` writes (http/server.go L75-87). -/
def served (O : Order) (n : Nat) (s : Service) : Res Str :=
  (marshal O (.ptr (.struct (serviceTy (n + 1)))) (some (serviceVal (X := X) n s) : Option _)).bind fun nd => match encodeIndent nd with | .ok t => .ok t | .error _ => .panic

/-- What is registered with a server: a handler (http/mux.go L14-46), a function (http/server.go L162-189) or an API, with the types of its fields (http/api.go L27-74). -/
inductive Reg where
  | handle (path : Str)
  | request (path : Str)
  | api (pkg name : Str) (h : AHandler) (ty : Nat → Str × OTy)

/-- A registration; the schemas that were made before an error remain (api/handler.go L133-150). -/
def Service.add (E : Env) (n : Nat) (s : Service) : Reg → Service
  | .handle p => { s with paths := insertKey p .bare s.paths }
  | .request p => { s with paths := insertKey p .request s.paths }
  | .api pkg name h ty => match update E n ty h (fun _ => none) s.schemas with
    | .ok d tab => { s with paths := h.urls.foldl (fun ps u => insertKey u (.api pkg name d.item) ps) s.paths, schemas := tab }
    | .err tab | .errNil tab | .panic tab => { s with schemas := tab }
    | .loop => s

/-- A server's documentation: `NewService` (openapi.go L3-21), then registrations. -/
def Service.of (E : Env) (n : Nat) (title : Str) (l : List Reg) : Service := l.foldl (Service.add E n) ⟨title, [], []⟩

/-! ### specification: a reader of the document -/

/-- A member of an object. -/
def member (n : Node X) (k : String) : Option (Node X) := match n with | .map m => lookupKey (lit k) m | _ => none

/-- A text that is left out if it is empty. -/
def textOf (s : Str) : Option (Node X) := if s = [] then none else some (.str s)

/-- Members of a schema that describe its parts. -/
def parts : List String := ["required", "properties", "additionalProperties", "example", "items", "default", "enum", "allOf", "$ref"]

/-- The type, format and description of a schema, and which of the parts it has. -/
def Head (n : Node X) (ty fmt desc : Str) (has : List String) : Prop :=
  member n "type" = textOf ty ∧ member n "format" = textOf fmt ∧ member n "description" = textOf desc ∧ ∀ k ∈ parts, k ∉ has → member n k = none

mutual
/-- The node is the JSON form of the schema, as OpenAPI 3.0 has it. -/
def Says : Schema → Node X → Prop
  | .leaf ty fmt desc, n => Head n ty fmt desc []
  | .ref key desc, n => Head n [] [] desc ["allOf"] ∧ member n "allOf" = some (.list [.map [(lit "$ref", .str (lit "#/components/schemas/" ++ key))]])
  | .array fmt desc s, n => Head n (lit "array") fmt desc ["items"] ∧ ∃ i, member n "items" = some i ∧ Says s i
  | .map fmt desc s, n => Head n (lit "object") fmt desc ["additionalProperties"] ∧ ∃ i, member n "additionalProperties" = some i ∧ Says s i
  | .object fmt desc ps, n => Head n (lit "object") fmt desc ["properties"] ∧ ∃ m, member n "properties" = some (.map m) ∧ AllSay ps m
/-- The same names, each with its schema. -/
def AllSay : List (Str × Schema) → List (Str × Node X) → Prop
  | [], m => m = []
  | (k, s) :: ps, m => ∃ n m', m = (k, n) :: m' ∧ Says s n ∧ AllSay ps m'
end

/-- What is found following the names. -/
def dig (n : Node X) : List String → Option (Node X)
  | [] => some n
  | k :: ks => (member n k).bind fun m => dig m ks

/-- The object that goes in or out: the name of the API, what is required, what there is. -/
def SaysObject (name : Str) (req : List Str) (ps : List (Str × Schema)) (n : Node X) : Prop :=
  Head n (lit "object") name [] ["required", "properties"] ∧ member n "required" = (if req = [] then none else some (.list (req.map .str))) ∧
    ∃ m, member n "properties" = some (.map m) ∧ AllSay ps m

/-- Who may call: anybody; only those with a token; those with or without. -/
def access : Option Bool → Option (Node X)
  | none => none
  | some true => some (.list [.map [(lit "jwt", .list [])]])
  | some false => some (.list [.map [(lit "jwt", .list [])], .map []])

/-- An operation: its summary, what goes in and out, who may call; that a body may be left out. -/
def SaysItem (summary : Str) (i o : Node X → Prop) (sec : Option Bool) (n : Node X) : Prop :=
  member n "summary" = some (.str summary) ∧ (∃ s, dig n ["requestBody", "content", "application/json", "schema"] = some s ∧ i s) ∧
    (∃ s, dig n ["responses", "200", "content", "application/json", "schema"] = some s ∧ o s) ∧ member n "security" = access sec ∧ dig n ["requestBody", "required"] = some (.bool false)

/-- A path: nothing about it, or that it can be posted to. -/
def SaysPath : Doc → Node X → Prop
  | .bare, n => n = .map []
  | .request, n => ∃ p, n = .map [(lit "post", p)] ∧ SaysItem [] (Says (.leaf (lit "object") [] [])) (Says (.leaf (lit "object") [] [])) none p
  | .api pkg name item, n => ∃ p, n = .map [(lit "post", p)] ∧
      SaysItem (pkg ++ lit "." ++ name) (SaysObject name item.required item.ins) (SaysObject name [] item.outs) item.security p

/-- The same paths, each as documented. -/
def PathsSay : List (Str × Doc) → List (Str × Node X) → Prop
  | [], m => m = []
  | (k, d) :: ps, m => ∃ n m', m = (k, n) :: m' ∧ SaysPath d n ∧ PathsSay ps m'

/-- The document describes the service. -/
def Describes (s : Service) (doc : Node X) : Prop :=
  member doc "openapi" = some (.str (lit "3.0.0")) ∧ dig doc ["info", "title"] = textOf s.title ∧ (∃ m, member doc "paths" = some (.map m) ∧ PathsSay s.paths m) ∧
    (if s.schemas = [] then dig doc ["components", "schemas"] = none else ∃ m, dig doc ["components", "schemas"] = some (.map m) ∧ AllSay s.schemas m)

end
end Verif.Openapi.Served

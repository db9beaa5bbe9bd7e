import Verif.Enc.Types
/-!
# OpenAPI schemas from types (api/openapi/schema.go)

A type is seen through `reflect`: named types are numbers, looked up in an environment, so that types may be recursive.

* `prim ty fmt` stands for the types whose schema has no parts: booleans, numbers, strings and interfaces, and the special cases (`json.RawMessage`, `[]byte`,
  times, and types with a marshaller whose zero value is a JSON string, boolean or number); `fmt` is the format, or nothing if it is `t.String()`.
* `t.String()` is a parameter of the environment. Examples (the `example` tag) and the log line are not modelled; types whose marshaller writes other texts are in `Openapi/Marshallers.lean`.
* `schemaFromType` recurses without limit; `body` has fuel, and `loop` as result when it runs out.
-/
set_option autoImplicit false
namespace Verif.Openapi
open Verif.Strconv Verif.Enc

/-- A type. api/openapi/schema.go L57-62, L125-266. -/
inductive OTy where
  | prim (ty : Str) (fmt : Option Str)
  /-- channels, functions, complex numbers, unsafe pointers -/
  | bad
  | ptr (t : OTy)
  /-- arrays and slices -/
  | arr (t : OTy)
  | map (k t : OTy)
  /-- a struct without name -/
  | anon (fs : List (FieldInfo × Str × OTy))
  /-- a named type -/
  | ref (i : Nat)

/-- A field: its name and tags, its `doc` tag, its type. api/openapi/schema.go L210-222. -/
abbrev Field := FieldInfo × Str × OTy

/-- The definition of a named type: a struct, or another type. api/openapi/schema.go L63-123, L239-255. -/
inductive Def where
  | struct (pkg name : Str) (fs : List Field)
  | lit (t : OTy)

/-- The named types, and `t.String()`. api/openapi/schema.go L96, L205, L241. -/
structure Env where
  defs : Nat → Def
  str : OTy → Str

/-- A schema (L19-35): one without parts, `allOf` with one `$ref`, an array, a map, a struct; with format and description. The `ref` holds the key. -/
inductive Schema where
  | leaf (ty fmt desc : Str)
  | ref (key desc : Str)
  | array (fmt desc : Str) (items : Schema)
  | map (fmt desc : Str) (elem : Schema)
  | object (fmt desc : Str) (props : List (Str × Schema))

/-- `Components.Schemas`. api/openapi/openapi.go L23-40. -/
abbrev Table := List (Str × Schema)

/-- `Format`. api/openapi/schema.go L268-281. -/
def Schema.format : Schema → Str
  | .leaf _ fmt _ | .array fmt _ _ | .map fmt _ _ | .object fmt _ _ => fmt
  | .ref _ _ => []

/-- `Type`. api/openapi/schema.go L268-281. -/
def Schema.type : Schema → Str
  | .leaf ty _ _ => ty
  | .array _ _ _ => lit "array"
  | .map _ _ _ | .object _ _ _ => lit "object"
  | .ref _ _ => []

/-- `formatFromSchema` (L268-281); the schemas in the table are those of structs. -/
def formatOf (tab : Table) (s : Schema) : Str :=
  if s.format ≠ [] then s.format
  else match s with
    | .ref key _ =>
      match lookupKey key tab with
      | none => []
      | some d => if d.format ≠ [] then d.format else d.type
    | s => s.type

/-- The format in the deferred function (L48-50). -/
def fixFmt (ty fmt : Str) : Str := if fmt = ty then [] else fmt

/-- The deferred function (L47-55) on a schema. -/
def Schema.finish (doc : Str) : Schema → Schema
  | .leaf ty fmt _ => .leaf ty (fixFmt ty fmt) doc
  | .ref key _ => .ref key doc
  | .array fmt _ s => .array (fixFmt (lit "array") fmt) doc s
  | .map fmt _ s => .map (fixFmt (lit "object") fmt) doc s
  | .object fmt _ ps => .object (fixFmt (lit "object") fmt) doc ps

/-- How a call ends: a schema; an error, with a schema or with a nil one; a panic; or not at all. api/openapi/schema.go L46-55. -/
inductive R (α : Type) where
  | ok (a : α) (tab : Table)
  | err (tab : Table)
  | errNil (tab : Table)
  | panic (tab : Table)
  | loop

/-- Returning: the deferred function (L47-55) panics if the schema is nil. -/
def fin (doc : Str) : R Schema → R Schema
  | .ok s tab => .ok (s.finish doc) tab
  | .errNil tab => .panic tab
  | r => r

/-- Going on after a call; an error is returned with a nil schema (L152-154, L164-170, L221-223, L243-245). -/
def R.bind {α β : Type} (r : R α) (f : α → Table → R β) : R β :=
  match r with
  | .ok a tab => f a tab
  | .err tab => .errNil tab
  | .errNil tab => .errNil tab
  | .panic tab => .panic tab
  | .loop => .loop

/-- The name of a field's property (L211-214). -/
def propName (f : FieldInfo) : Str := if (cutComma f.tag).1 = [] then f.name else (cutComma f.tag).1

/-- The loop over the fields (L204-217), with `sub` for the recursive call; if the struct has a key then its definition is updated. -/
def fieldsWith (sub : Str → OTy → Table → R Schema) (def_ : Option (Str × Str)) : List Field → List (Str × Schema) → Table → R (List (Str × Schema))
  | [], props, tab => .ok props tab
  | (f, doc, t) :: l, props, tab => (sub doc t tab).bind fun s tab =>
    let props := insertKey (propName f) s props
    fieldsWith sub def_ l props (match def_ with | some (key, fmt) => insertKey key (.object fmt [] props) tab | none => tab)

/-- Joining texts: `strings.Join` of api/openapi/schema.go L224. -/
def joinWith (sep : Str) : List Str → Str
  | [] => []
  | [w] => w
  | w :: ws => w ++ sep ++ joinWith sep ws

/-- The format of a struct without name (L218-220). -/
def anonFormat (E : Env) (fs : List Field) : Str :=
  lit "{" ++ joinWith (lit ", ") (fs.map fun f => propName f.1 ++ lit " " ++ E.str f.2.2) ++ lit "}"

/-- The key of a named struct (L232-233). -/
def structKey (pkg name : Str) : Str := (pkg ++ '/' :: name).map fun c => if c = '/' then '_' else c

/-- `schemaFromType` (L46-252) without the deferred function: `orig` is `t`, the second type is `tt` on its way through the pointers (L57-60). -/
def body (E : Env) : Nat → OTy → OTy → Table → R Schema
  | 0, _, _, _ => .loop
  | n + 1, orig, t, tab =>
    match t with
    | .prim ty fmt => .ok (.leaf ty (fmt.getD (E.str orig)) []) tab
    | .bad => .err tab
    | .ptr t => body E n orig t tab
    | .arr t => (fin [] (body E n t t tab)).bind fun s tab => .ok (.array (lit "[]" ++ formatOf tab s) [] s) tab
    | .map k t => (fin [] (body E n k k tab)).bind fun sk tab => (fin [] (body E n t t tab)).bind fun s tab =>
        .ok (.map (lit "map[" ++ formatOf tab sk ++ lit "]" ++ formatOf tab s) [] s) tab
    | .anon fs => (fieldsWith (fun doc t tab => fin doc (body E n t t tab)) none fs [] tab).bind fun ps tab => .ok (.object (anonFormat E fs) [] ps) tab
    | .ref i =>
      match E.defs i with
      | .lit t => body E n orig t tab
      | .struct pkg name fs =>
        match lookupKey (structKey pkg name) tab with
        | some _ => .ok (.ref (structKey pkg name) []) tab
        | none =>
          (fieldsWith (fun doc t tab => fin doc (body E n t t tab)) (some (structKey pkg name, E.str orig)) fs []
            (insertKey (structKey pkg name) (.object (E.str orig) [] []) tab)).bind fun _ tab => .ok (.ref (structKey pkg name) []) tab

/-- `SchemaFromType` (L37-44). -/
def schema (E : Env) (n : Nat) (doc : Str) (t : OTy) (tab : Table) : R Schema := fin doc (body E n t t tab)

end Verif.Openapi

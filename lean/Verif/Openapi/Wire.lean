import Verif.Enc.Unmarshal
import Verif.Openapi.Model
/-!
# The schemas of the types `enc` writes (api/openapi/schema.go L46-266)

`wireDoc` is `schemaFromType` for the types of the typed layer of `enc`, with references resolved (C54) and without formats, descriptions and examples. Types are finite trees.
-/
set_option autoImplicit false
namespace Verif.Openapi.Wire
open Verif.Strconv Verif.Enc Verif.Openapi

mutual
/-- A schema: a type without parts; an array; a map; an object with its properties. schema.go L18-36. -/
inductive Doc where
  | leaf (ty : Str)
  | array (d : Doc)
  | map (d : Doc)
  | object (ps : Props)
/-- The properties, in the order they are set. schema.go L212-227. -/
inductive Props where
  | nil
  | cons (k : Str) (d : Doc) (ps : Props)
end

/-- `Properties[k]`: later ones replace earlier ones. schema.go L226. -/
def Props.find (k : Str) : Props → Option Doc
  | .nil => none
  | .cons k' d ps => match ps.find k with
    | some d => some d
    | none => if k = k' then some d else none

/-- Whether a type is `byte`, so that a slice of it is `[]byte`. schema.go L71. -/
def isByte : Ty → Bool
  | .uint .w8 => true
  | _ => false

mutual
/-- `schemaFromType` (schema.go L46-266); `none` is an error or panic. `[]byte` is L71-76, times L78-83, `enc.Duration` L85-95 (its zero value is written as a string). -/
def wireDoc : Ty → Option Doc
  | .bool => some (.leaf (lit "boolean"))
  | .int _ => some (.leaf (lit "number"))
  | .uint _ => some (.leaf (lit "number"))
  | .float64 => some (.leaf (lit "number"))
  | .float32 => some (.leaf (lit "number"))
  | .string => some (.leaf (lit "string"))
  | .any => some (.leaf (lit "object"))
  | .node => some (.leaf (lit "object"))
  | .iface => some (.leaf (lit "object"))
  | .time => some (.leaf (lit "string"))
  | .encTime => some (.leaf (lit "string"))
  | .encDur => some (.leaf (lit "string"))
  | .func => none
  | .chan => none
  | .ptr t => wireDoc t
  | .slice t => if isByte t then some (.leaf (lit "string")) else (wireDoc t).map .array
  | .array _ t => (wireDoc t).map .array
  | .map _ t => (wireDoc t).map .map
  | .struct fs => (wireFields fs).map .object
/-- The fields, exported or not (schema.go L213-228). -/
def wireFields : Fields → Option Props
  | .nil => some .nil
  | .cons f t fs => match wireDoc t with
    | none => none
    | some d => match wireFields fs with
      | none => none
      | some ps => some (.cons (propName f) d ps)
end

end Verif.Openapi.Wire

import Verif.Openapi.Wire
/-!
# Examples in the documentation (api/openapi/schema.go L37-53, L283-352)
-/
set_option autoImplicit false
namespace Verif.Openapi.Wire
open Verif.Strconv Verif.Enc Verif.Openapi

/-- `unicode.IsSpace`, for `strings.TrimSpace` in schema.go L40, L214. -/
def isSpace (c : Char) : Bool :=
  let n := c.toNat
  (9 ≤ n && n ≤ 13) || n == 0x20 || n == 0x85 || n == 0xA0 || n == 0x1680 || (0x2000 ≤ n && n ≤ 0x200a) || n == 0x2028 || n == 0x2029 || n == 0x202f || n == 0x205f ||
    n == 0x3000

/-- `strings.TrimSpace`, for schema.go L40, L214. -/
def trim (s : Str) : Str := ((s.dropWhile isSpace).reverse.dropWhile isSpace).reverse

/-- How the example of a type is read (schema.go L62-265). -/
inductive ExKind where
  | text | bool | int | float | list | map | node
deriving DecidableEq

/-- The function that reads the example of a type: the text itself L66-107, `tryDecodingAs…` L125-262. -/
def exKind : Ty → ExKind
  | .bool => .bool
  | .int _ | .uint _ => .int
  | .float64 | .float32 => .float
  | .string | .time | .encTime | .encDur => .text
  | .any | .node | .iface => .node
  | .func | .chan => .text
  | .ptr t => exKind t
  | .slice t => if isByte t then .text else .list
  | .array _ _ => .list
  | .map _ _ => .map
  | .struct _ => .map

variable {X : Ext}

/-- What is stored as the example and then marshalled (schema.go L283-352 and enc/handler.go L190-226): nodes as nodes are, the rest by kind. -/
def readExample (k : ExKind) (s : Str) : Res (Node X) :=
  match k with
  | .text => .ok (.str s)
  | .bool => if s = lit "true" then .ok (.bool true) else if s = lit "false" then .ok (.bool false) else .ok (.str s)
  | .float => match X.fParse s with
    | some f => .ok (.float f)
    | none => .ok (.str s)
  | .int => match parseInt s with
    | some i => .ok (.int i)
    | none => .ok (.str s)
  | .list => match decode (X := X) s with
    | some (some (.list l)) => marshalNode (.list l)
    | _ => .ok (.str s)
  | .map => match decode (X := X) s with
    | some (some (.map m)) => marshalNode (.map m)
    | _ => .ok (.str s)
  | .node => match decode (X := X) s with
    | some (some n) => marshalNode n
    | some none => .ok .nil
    | none => .ok (.str s)

/-- The `example` of the schema of a type, in the document: none if the tag is blank (schema.go L51-53) or if the value is empty (`omitempty`, L25). -/
def shown (t : Ty) (tag : Str) : Res (Option (Node X)) :=
  if trim tag = [] then .ok none
  else (readExample (exKind t) (trim tag)).bind fun n => .ok (if emptyNode n then none else some n)

end Verif.Openapi.Wire

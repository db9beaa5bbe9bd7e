import Verif.Test.Helpers
import Verif.Enc.Json
/-!
# /repo/test: comparing as JSON (test/equals.go L60-84, test/util.go L18-36)

`json.RawMessage` and `[]byte` arguments are not modelled. Every other argument that is not a string is given by what `enc.Marshal` makes of it.
-/
set_option autoImplicit false
namespace Verif.Test
open Verif.Strconv Verif.Enc

/-- What `json.Valid` accepts (one value between white space, `encoding/json`), and its value as `JSON.Decode` reads it. test/util.go L18-36. -/
def document {X : Ext} (s : Str) : Option (Node X) :=
  match parseValue (fuelFor s) maxDepth s with
  | some (n, r) => if skipWs r = [] then some n else none
  | none => none

mutual
/-- What `json.Unmarshal` into an `any` followed by `enc.Marshal` makes of a document (test/util.go L26-28): numbers become `float64`; one out of
range leaves nil (`encoding/json.convertNumber`), and the error is ignored. -/
def native {X : Ext} : Node X → Node X
  | .digits s => match X.fParse s with
    | some f => .float f
    | none => .nil
  | .list l => .list (nativeList l)
  | .map m => .map (nativeMap m)
  | n => n
/-- `List.native` (enc/list.go L15-22). -/
def nativeList {X : Ext} : List (Node X) → List (Node X)
  | [] => []
  | n :: l => native n :: nativeList l
/-- `Map.native` (enc/map.go L18-24). -/
def nativeMap {X : Ext} : List (Str × Node X) → List (Str × Node X)
  | [] => []
  | (k, n) :: l => (k, native n) :: nativeMap l
end

/-- An argument: a string, or something else with what `enc.Marshal` returns for it (a node, or the text of the error). test/util.go L18-36. -/
inductive JArg (X : Ext) where
  | text (s : Str)
  | value (r : Except Str (Node X))

/-- The node that is encoded; `none` when `enc.Marshal` fails. test/util.go L18-36. -/
def JArg.node {X : Ext} : JArg X → Option (Node X)
  | .text s => match document s with
    | some n => some (native n)
    | none => some (.str s)
  | .value (.ok n) => some n
  | .value (.error _) => none

/-- test/util.go L18-36 `jsonish`: the encoded node, or the text of the error. `JSON.Encode` may panic. -/
def jsonish {X : Ext} (a : JArg X) : Go Str :=
  match a with
  | .text s => match document (X := X) s with
    | some n => encode (native n)
    | none => encode (X := X) (.str s)
  | .value (.ok n) => encode n
  | .value (.error e) => .ok e

/-- test/equals.go L73-81 `equalJSON`. -/
def equalJSON {X : Ext} (a b : JArg X) : Go Res := do
  let e ← jsonish a
  let g ← jsonish b
  return equal e g

end Verif.Test

import Verif.Http.Spec
/-!
# The example application (example/example.go, example/cmd/main.go)

* The store's mutex is never used by the code; it is an empty struct here.
* All objects share the store through a pointer: the store of an object `Recv` makes is that of the template at that time, and what `Do` leaves in it is
  the store of the next request. Requests one after another; see `Example/Race.lean` for requests at the same time.
-/
set_option autoImplicit false
namespace Verif.Example
open Verif.Strconv Verif.Enc Verif.Api Verif.Http

variable {X : Ext}

/-- `Store` (example/example.go L10-13). -/
def storeTy : Fields := .cons { name := lit "m", exported := false } (.struct .nil) <| .cons { name := lit "Data" } (.map .str .any) .nil

/-- `api.Request` (api/request.go L3-5). -/
def requestTy : Fields := .cons { name := lit "Headers" } (.map .str .string) .nil

/-- `Get` (example/example.go L15-27). The embedded `any` is a field of that name, not exported. -/
def getTy : Fields :=
  .cons { name := lit "any", exported := false, url := lit "/api/v1/get" } .any <|
  .cons { name := lit "XFF", api := lit "header,X-Forwarded-For" } .string <|
  .cons { name := lit "UID", api := lit "auth,required" } .string <|
  .cons { name := lit "Store" } (.ptr (.struct storeTy)) <|
  .cons { name := lit "Key", api := lit "in,out", tag := lit "key" } .string <|
  .cons { name := lit "Value", api := lit "out", tag := lit "value" } .any .nil

/-- `Set` (example/example.go L34-42). -/
def setTy : Fields :=
  .cons { name := lit "R", url := lit "/api/v1/set" } (.struct requestTy) <|
  .cons { name := lit "Store" } (.ptr (.struct storeTy)) <|
  .cons { name := lit "Key", api := lit "in,out", tag := lit "key" } .string <|
  .cons { name := lit "Value", api := lit "in", tag := lit "value" } .any <|
  .cons { name := lit "Prev", api := lit "out", tag := lit "prev" } .any .nil

/-- `&example.Get{Store: &store}` (example/cmd/main.go L25). -/
def getTmpl (data : List (Str × Any X)) : FVals X getTy := (Any.nil, ([] : Str), ([] : Str), some ((), some data, ()), ([] : Str), Any.nil, ())

/-- `&example.Set{Store: &store}` (example/cmd/main.go L26). -/
def setTmpl (data : List (Str × Any X)) : FVals X setTy := ((none, ()), some ((), some data, ()), ([] : Str), Any.nil, Any.nil, ())

/-- `Set.Do` (example/example.go L44-48): a nil store is dereferenced, a nil map written to: panics. -/
def setDo : FVals X setTy → Done (FVals X setTy)
  | (r, store, key, value, _, _) =>
    match (store : Option (Unit × Option (List (Str × Any X)) × Unit)) with
    | some (mu, some data, u) => .ok (r, some (mu, some (insertKey key value data), u), key, value, (lookupKey key data).getD Any.nil, ())
    | _ => .panic

/-- The store an object points to. example/example.go L37. -/
def storeOf : FVals X setTy → Option (List (Str × Any X))
  | (_, store, _) => match (store : Option (Unit × Option (List (Str × Any X)) × Unit)) with
    | some (_, data, _) => data
    | none => none

/-- The store after a request for `Set`: what `Do` left in it, if it was called. http/api.go L31-63, example/example.go L44-48. -/
def storeAfter [DecidableEq X.F] [DecidableEq X.T] (N : NetExt) (O : Order) (h : AHandler) (data : List (Str × Any X)) (body : Bytes) : List (Str × Any X) :=
  match readFrom (X := X) (N.text body) with
  | none => data
  | some d => match recv O h setTy (setTmpl data) { data := d } with
    | .ok obj => match setDo obj with
      | .ok obj => (storeOf obj).getD data
      | _ => data
    | _ => data

/-- The store after several requests. example/cmd/main.go L18-26. -/
def storeAfterAll [DecidableEq X.F] [DecidableEq X.T] (N : NetExt) (O : Order) (h : AHandler) : List Bytes → List (Str × Any X) → List (Str × Any X)
  | [], data => data
  | b :: l, data => storeAfterAll N O h l (storeAfter N O h data b)

/-- What a request for `Set` is answered, given the store. http/api.go L31-63. -/
def setReply [DecidableEq X.F] [DecidableEq X.T] (N : NetExt) (O : Order) (h : AHandler) (data : List (Str × Any X)) (body : Bytes) : Done Bytes :=
  apiFunc N O h setTy (setTmpl data) setDo body

end Verif.Example

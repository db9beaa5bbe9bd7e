import Verif.Api.Spec
/-!
# Calling an API in a test (api/test.go, http/test.go)

Client and server are in the same process, the object is the template of both, and the data goes from one to the other as nodes, without becoming text.
-/
set_option autoImplicit false
namespace Verif.Api
open Verif.Strconv Verif.Enc

variable {X : Ext} [DecidableEq X.F] [DecidableEq X.T]

/-- From the client's `Send` to the client's `Recv` (api/test.go L17-38, http/test.go L19-49): `uid` is what is put into `data.UID`, `exec` is `Do`. -/
def testCall (O O' : Order) (h : AHandler) (fs : Fields) (uid : Option (Node X)) (exec : FVals X fs → Res (FVals X fs)) (obj : FVals X fs) : Res (FVals X fs) :=
  (send O fs obj h.ins []).bind fun d => (recv O' h fs obj { data := d, uid := uid }).bind fun s => (exec s).bind fun s =>
    (send O' fs s h.outs []).bind fun d => clientRecv O fs d h.outs obj

/-- `api.Test` (api/test.go L10-40): the object afterwards; an error fails the test. -/
def apiTest (U : Str → Option Str) (O O' : Order) (fs : Fields) (exec : FVals X fs → Res (FVals X fs)) (obj : FVals X fs) : Res (FVals X fs) :=
  match newHandler U (.ptr (.struct fs) (some obj)) with
  | none => .err
  | some h => testCall O O' h fs none exec obj

/-- `http.TestAPI` (http/test.go L10-51): `uid` is marshalled into the request. -/
def testAPI (U : Str → Option Str) (O O' : Order) (fs : Fields) {u : Ty} (uid : Val X u) (exec : FVals X fs → Res (FVals X fs)) (obj : FVals X fs) : Res (FVals X fs) :=
  match newHandler U (.ptr (.struct fs) (some obj)) with
  | none => .err
  | some h => (marshal O u uid).bind fun n => testCall O O' h fs (some n) exec obj

end Verif.Api

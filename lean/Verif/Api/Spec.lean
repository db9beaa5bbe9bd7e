import Verif.Api.Model
import Verif.Enc.TypedSpec
/-!
# What api handlers should do
-/
set_option autoImplicit false
namespace Verif.Api
open Verif.Strconv Verif.Enc

/-- The words joined by commas. -/
def joinComma : List Str → Str
  | [] => []
  | [w] => w
  | w :: ws => w ++ ',' :: joinComma ws

/-- The words an `api` tag may have. -/
def apiWords : List Str := [lit "in", lit "out", lit "both", lit "required", lit "auth", []]

/-- A field as `NewHandler` wants it: only known words, and a `url` that can be parsed, if any. -/
def GoodField (U : Str → Option Str) (f : FieldInfo) : Prop := (∀ w ∈ splitComma f.api, w ∈ apiWords) ∧ (f.url = [] ∨ (U f.url).isSome = true)

/-- The field at `j` of an object is `x`, of type `t`, described by `f`. -/
def At {X : Ext} {fs : Fields} (obj : FVals X fs) (j : Nat) (f : FieldInfo) (t : Ty) (x : Val X t) : Prop := getField fs j obj = some (f, ⟨t, x⟩)

/-- The field is an input. -/
def IsIn (f : FieldInfo) : Prop := lit "in" ∈ splitComma f.api ∨ lit "both" ∈ splitComma f.api
/-- The field is an output. -/
def IsOut (f : FieldInfo) : Prop := lit "out" ∈ splitComma f.api ∨ lit "both" ∈ splitComma f.api
/-- The field holds the identity of the caller. -/
def IsAuth (f : FieldInfo) : Prop := lit "auth" ∈ splitComma f.api
/-- The field is required. -/
def IsRequired (f : FieldInfo) : Prop := lit "required" ∈ splitComma f.api

/-- What a request gives a field: zero if the key is missing, else what `enc` makes of the node, starting from zero. -/
def Decoded {X : Ext} (O : Order) (data : List (Str × Node X)) (name : Str) (t : Ty) (x : Val X t) : Prop :=
  match lookupKey name data with
  | none => x = zero X t
  | some n => (Enc.unmarshal (encH X) O t n (zero X t)).st = .ok ∧ x = (Enc.unmarshal (encH X) O t n (zero X t)).val

/-- The names of the fields `p` accepts, in order. -/
def namesOf (p : FieldInfo → Bool) (fs : Fields) : List Str := (fs.infos.filter p).map tagName

/-- The fields `P` accepts have distinct names. -/
def DistinctNames {X : Ext} {fs : Fields} (P : FieldInfo → Prop) (obj : FVals X fs) : Prop :=
  ∀ (i j : Nat) (f g : FieldInfo) (t u : Ty) (x : Val X t) (y : Val X u), At obj i f t x → At obj j g u y → P f → P g → tagName f = tagName g → i = j

/-- The fields `P` accepts survive JSON. -/
def Survive {X : Ext} {fs : Fields} (O : Order) (P : FieldInfo → Prop) (obj : FVals X fs) : Prop :=
  ∀ (j : Nat) (f : FieldInfo) (t : Ty) (x : Val X t), At obj j f t x → P f → Faithful true t x ∧ ∀ n, marshal O t x = .ok n → n.depth < maxDepth

/-- A request over JSON: the client's `Send`, the server's `Recv`. -/
def request {X : Ext} [DecidableEq X.F] [DecidableEq X.T] (O O' : Order) (h : AHandler) (fs : Fields) (now client : FVals X fs) : Res (FVals X fs) :=
  (send O fs client h.ins []).bind fun d => (overJson d).bind fun d => recv O' h fs now { data := d }

/-- A response over JSON: the server's `Send`, the client's `Recv`. -/
def response {X : Ext} (O O' : Order) (h : AHandler) (fs : Fields) (server client : FVals X fs) : Res (FVals X fs) :=
  (send O' fs server h.outs []).bind fun d => (overJson d).bind fun d => clientRecv O fs d h.outs client

/-- A whole call (api/test.go L10-40), over JSON; `exec` is the server's `Do`. -/
def call {X : Ext} [DecidableEq X.F] [DecidableEq X.T] (O O' : Order) (h : AHandler) (fs : Fields) (now : FVals X fs) (exec : FVals X fs → Res (FVals X fs))
    (client : FVals X fs) : Res (FVals X fs) :=
  (request O O' h fs now client).bind fun s => (exec s).bind fun s => response O O' h fs s client

end Verif.Api

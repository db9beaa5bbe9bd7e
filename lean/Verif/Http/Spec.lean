import Verif.Http.Model
/-!
# What http responses should be
-/
set_option autoImplicit false
namespace Verif.Http
open Verif.Strconv Verif.Enc Verif.Api

/-- A writer that records the calls. -/
def recW : Writer (List Op) := ⟨fun w c => some (w ++ [.header c]), fun w b => some (w ++ [.write b]), fun w k v => some (w ++ [.add k v])⟩

/-- A call of `WriteHeader`. -/
def isHeader : Op → Bool
  | .header _ => true
  | _ => false

/-- The code of the first call that settles the status: `WriteHeader`, or `Write`, which means 200. -/
def firstStatus : List Op → Option Int
  | [] => none
  | .header c :: _ => some c
  | .write _ :: _ => some 200
  | .add _ _ :: l => firstStatus l

/-- The codes of the `WriteHeader` calls. -/
def headerCodes : List Op → List Int
  | [] => []
  | .header c :: l => c :: headerCodes l
  | _ :: l => headerCodes l

/-- The bytes written. -/
def written : List Op → Bytes
  | [] => []
  | .write b :: l => b ++ written l
  | _ :: l => written l

/-- Bytes of texts can be read. -/
def TextLaw (N : NetExt) : Prop := ∀ s, N.text (utf8 s) = s

/-- What is zipped can be unzipped, and nothing is not a zipped text. -/
def GzipLaw (N : NetExt) (gunzip : Bytes → Option Bytes) : Prop := gunzip [] = none ∧ ∀ b, gunzip (N.gz b).flatten = some b

/-- The code of an error answer is one the client sees as it is. -/
def ErrorStatus (code : Int) : Prop := 200 ≤ code ∧ code ≤ 999

/-- The first and the last of them. -/
example : ErrorStatus 200 ∧ ErrorStatus 999 ∧ ¬ ErrorStatus 199 ∧ ¬ ErrorStatus 1000 := by simp [ErrorStatus]

/-- What a client of another kind makes of the `Do` of an object. -/
def Done.res {α : Type} : Done α → Res α
  | .ok a => .ok a
  | .err _ => .err
  | .panic => .panic

/-- The server at the other end of the network: a registered API. -/
def apiNet {X : Ext} [DecidableEq X.F] [DecidableEq X.T] (N : NetExt) (O : Order) (tid : Str) (h : AHandler) (fs : Fields) (now : FVals X fs)
    (exec : FVals X fs → Done (FVals X fs)) (path : Str) (body : Bytes) : Option Resp :=
  if path ∈ h.urls then (handleRequest N tid [] (apiFunc N O h fs now exec) (some (some body))).map Prod.fst else some ⟨404, [], []⟩

end Verif.Http

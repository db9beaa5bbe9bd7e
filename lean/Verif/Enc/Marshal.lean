import Verif.Enc.Types
/-!
# `Handler.Marshal` (enc/handler.go L170-318)
-/
set_option autoImplicit false
namespace Verif.Enc
open Verif.Strconv

/-- The string in `Duration.MarshalJSON` (enc/time.go L97-102). -/
def durText (X : Ext) (d : Int) : Str := if d = 0 then [] else X.dStr d

mutual
/-- `Marshal` of what an `any` holds: the native kinds by kind; `time.Time` (L183-184); `time.Duration` is an integer by kind; `enc.Time` and
`enc.Duration` are `json.Marshaler`s whose text is decoded again (L190-195), which gives a string (`decode_jsonStr`). -/
def Any.marshal {X : Ext} : Any X → Node X
  | .nil => .nil
  | .bool b => .bool b
  | .str s => .str s
  | .f64 f => .float f
  | .i64 i => .int i
  | .list l => .list (Any.listMarshal l)
  | .map m => .map (Any.mapMarshal m)
  | .time t => .time t
  | .dur d => .int d
  | .encTime t => .str (X.tFmt t)
  | .encDur d => .str (durText X d)
/-- The elements of a `[]any`: enc/handler.go L228-238. -/
def Any.listMarshal {X : Ext} : List (Any X) → List (Node X)
  | [] => []
  | a :: l => a.marshal :: Any.listMarshal l
/-- The entries of a `map[string]any`: enc/handler.go L239-272. -/
def Any.mapMarshal {X : Ext} : List (Str × Any X) → List (Str × Node X)
  | [] => []
  | (k, a) :: l => (k, a.marshal) :: Any.mapMarshal l
end

/-- `Marshal` of a node (L190-197): `String`, `Bool` and `List` have no `MarshalJSON` and are returned as they are; the others are written as JSON and
decoded again. `Map.MarshalJSON` returns the error of its members, `Pairs.MarshalJSON` panics on one. -/
def marshalNode {X : Ext} (n : Node X) : Res (Node X) :=
  let viaText : Res (Node X) := match decode (X := X) n.text with
    | some (some m) => .ok m
    | _ => .err
  match n with
  | .str _ | .bool _ | .list _ => .ok n
  | .map m => if Node.mapEncodable m then viaText else if Node.mapPanics m then .panic else .err
  | .pairs l => if Node.pairsEncodable l then viaText else .panic
  | .nil | .int _ | .float _ | .digits _ | .time _ | .dur _ => if n.encodable then viaText else .err

/-- Whether a pointer to the type is a `json.Marshaler` through a method of the value, so that calling it on a nil pointer panics. enc/handler.go L190-195. -/
def Ty.valueMarshaler : Ty → Bool
  | .time | .encTime | .encDur => true
  | _ => false

/-- A pointer to `time.Time` is a `json.Marshaler` but no `time.Time`: it goes through JSON. enc/handler.go L183-195, L218-222. -/
def ptrFix {X : Ext} : Ty → Res (Node X) → Res (Node X)
  | .time, .ok n => marshalNode n
  | _, r => r

/-- What `omitempty` drops (L292-315). -/
def emptyNode {X : Ext} : Node X → Bool
  | .nil => true
  | .str s => s = []
  | .int i => i = 0
  | .float f => X.fIsZero f
  | .digits s => s = []
  | _ => false

mutual
/-- `Handler.Marshal` (enc/handler.go L175-318). Maps are visited in any order. -/
def marshal {X : Ext} (O : Order) : (t : Ty) → Val X t → Res (Node X)
  | .bool, v => .ok (.bool v)
  | .int _, v => .ok (.int (BitVec.toInt v))
  | .uint _, v => .ok (.int (BitVec.ofNat 64 (BitVec.toNat v)).toInt)
  | .float64, v => .ok (.float v)
  | .float32, v => .ok (.float v)
  | .string, v => .ok (.str v)
  | .any, v => .ok (Any.marshal v)
  | .node, v => match (v : Option (Node X)) with
    | none => .ok .nil
    | some n => marshalNode n
  | .time, v => .ok (.time v)
  | .encTime, v => .ok (.str (X.tFmt v))
  | .encDur, v => .ok (.str (durText X v))
  | .func, _ => .err
  | .chan, _ => .panic
  | .iface, _ => .ok .nil
  | .ptr t, v => match (v : Option (Val X t)) with
    | none => if t.valueMarshaler then .panic else .ok .nil
    | some x => ptrFix t (marshal O t x)
  | .slice t, v => match (v : Option (List (Val X t))) with
    | none => .ok .nil
    | some l => (mapRes (marshal O t) l).bind fun ns => .ok (.list ns)
  | .array n t, v => (mapRes (marshal O t) (v : { l : List (Val X t) // l.length = n }).1).bind fun ns => .ok (.list ns)
  | .map k t, v => match (v : Option (List (Str × Val X t))) with
    | none => .ok .nil
    | some m => (mapRes (fun e => (marshal O t e.2).bind fun n => if k = .other then .err else .ok (e.1, n)) (O.perm m)).bind fun l =>
        .ok (.map (ofEntries l))
  | .struct fs, v => (marshalFields O fs v).bind fun l => .ok (.pairs l)
/-- the fields of a struct (L277-317) -/
def marshalFields {X : Ext} (O : Order) : (fs : Fields) → FVals X fs → Res (List ((Str × Str) × Node X))
  | .nil, _ => .ok []
  | .cons f t fs, (v, vs) =>
    if f.exported then
      match parseTag f with
      | none => .panic
      | some tag =>
        if tag.skip then marshalFields O fs vs
        else (marshal O t v).bind fun n => (marshalFields O fs vs).bind fun l =>
          .ok (if tag.omitEmpty && emptyNode n then l else ((tag.name, tag.json), n) :: l)
    else marshalFields O fs vs
end

end Verif.Enc

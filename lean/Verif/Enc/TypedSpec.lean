import Verif.Enc.Marshal
import Verif.Enc.Unmarshal
import Verif.Enc.JsonSpec
/-!
# Which typed values should survive a round trip

`J` says whether the value also crosses the JSON wire.
-/
set_option autoImplicit false
namespace Verif.Enc
open Verif.Strconv

/-- What the receiver gets for a node: the node itself, or what JSON makes of it. -/
def wire {X : Ext} (J : Bool) (n : Node X) : Node X := if J then n.norm else n

mutual
/-- Native values that survive: without times and durations; integers in an `any` survive only without JSON (they come back as floats). -/
def Any.Faithful {X : Ext} (J : Bool) : Any X → Prop
  | .nil | .bool _ | .str _ => True
  | .f64 f => J = true → (X.fJson f).isSome = true
  | .i64 _ => J = false
  | .list l => Any.listFaithful J l
  | .map m => SortedKeys m ∧ Any.mapFaithful J m
  | .time _ | .dur _ | .encTime _ | .encDur _ => False
def Any.listFaithful {X : Ext} (J : Bool) : List (Any X) → Prop
  | [] => True
  | a :: l => a.Faithful J ∧ Any.listFaithful J l
def Any.mapFaithful {X : Ext} (J : Bool) : List (Str × Any X) → Prop
  | [] => True
  | (_, a) :: l => a.Faithful J ∧ Any.mapFaithful J l
end

/-- Nothing behind the pointers. -/
def isNilVal {X : Ext} : (t : Ty) → Val X t → Prop
  | .any, v => (v : Any X) = .nil
  | .node, v => (v : Option (Node X)) = none ∨ (v : Option (Node X)) = some .nil
  | .iface, _ => True
  | .ptr t, v => match (v : Option (Val X t)) with
    | none => True
    | some x => isNilVal t x
  | .slice t, v => (v : Option (List (Val X t))) = none
  | .map _ t, v => (v : Option (List (Str × Val X t))) = none
  | _, _ => False

/-- The empty string, zero, or nothing, possibly behind pointers. -/
def isEmptyVal {X : Ext} : (t : Ty) → Val X t → Prop
  | .int w, v => v = zero X (.int w)
  | .uint w, v => v = zero X (.uint w)
  | .float64, f => X.fIsZero f = true
  | .float32, f => X.fIsZero f = true
  | .string, s => (s : Str) = []
  | .any, a => (a : Any X) = .nil ∨ (a : Any X) = .str [] ∨ (a : Any X) = .i64 0 ∨ ∃ f, (a : Any X) = .f64 f ∧ X.fIsZero f = true
  | .node, v => (v : Option (Node X)) = none ∨ (v : Option (Node X)) = some .nil ∨ (v : Option (Node X)) = some (.str [])
  | .time, t => X.tFmt t = []
  | .encTime, t => X.tFmt t = []
  | .encDur, d => durText X d = []
  | .iface, _ => True
  | .ptr t, v => match (v : Option (Val X t)) with
    | none => True
    | some x => isEmptyVal t x
  | .slice t, v => (v : Option (List (Val X t))) = none
  | .map _ t, v => (v : Option (List (Str × Val X t))) = none
  | _, _ => False

/-- The JSON names a struct is written with. -/
def liveNames : Fields → List Str
  | .nil => []
  | .cons f _ fs => (if f.exported then (match parseTag f with | some tag => if tag.skip then [] else [tag.json] | none => []) else []) ++ liveNames fs

mutual
/-- Values that should survive:
* unsigned integers below 2^63;
* floats that JSON can represent, `float32` values that are one;
* plain nodes;
* times and durations whose text can be read back;
* pointers to something;
* fields that are not written hold their zero value;
* the fields have distinct, non-empty names and valid tags. -/
def Faithful {X : Ext} (J : Bool) : (t : Ty) → Val X t → Prop
  | .bool, _ => True
  | .int _, _ => True
  | .uint _, v => BitVec.toNat v < 2 ^ 63
  | .float64, f => J = true → (X.fJson f).isSome = true
  | .float32, f => X.f32 f = f ∧ (J = true → (X.fJson f).isSome = true)
  | .string, _ => True
  | .any, a => Any.Faithful J a
  | .node, v => ∃ n, (v : Option (Node X)) = some n ∧ n.WF ∧ n.plain = true ∧ n.encodable = true ∧ n.depth ≤ maxDepth
  | .time, t => X.tStrict (X.tFmt t) = some t
  | .encTime, t => X.tParse (X.tFmt t) = some t
  | .encDur, d => durParse X (durText X d) = some d
  | .func, _ => False
  | .chan, _ => False
  | .iface, _ => True
  | .ptr t, v => match (v : Option (Val X t)) with
    | none => t.valueMarshaler = false
    | some x => Faithful J t x ∧ ¬ isNilVal t x
  | .slice t, v => match (v : Option (List (Val X t))) with
    | none => True
    | some l => ∀ x ∈ l, Faithful J t x
  | .array n t, v => ∀ x ∈ (v : { l : List (Val X t) // l.length = n }).1, Faithful J t x
  | .map k t, v => match (v : Option (List (Str × Val X t))) with
    | none => True
    | some m => SortedKeys m ∧ ∀ e ∈ m, normKey k e.1 = some e.1 ∧ Faithful J t e.2
  | .struct fs, v => (liveNames fs).Nodup ∧ [] ∉ liveNames fs ∧ FaithfulFields J fs v
def FaithfulFields {X : Ext} (J : Bool) : (fs : Fields) → FVals X fs → Prop
  | .nil, _ => True
  | .cons f t fs, (v, vs) => (match f.exported, parseTag f with
    | false, _ => v = zero X t
    | true, none => False
    | true, some tag => if tag.skip then v = zero X t else Faithful J t v ∧ (tag.omitEmpty = true → isEmptyVal t v → v = zero X t)) ∧ FaithfulFields J fs vs
end

/-- The descriptions of the fields, in order. -/
def Fields.infos : Fields → List FieldInfo
  | .nil => []
  | .cons f _ fs => f :: fs.infos

/-- `k` is the JSON name of an exported field. -/
def Named (f : FieldInfo) (k : Str) : Prop := f.exported = true ∧ ∃ tag, parseTag f = some tag ∧ tag.json = k

/-- Only fields whose JSON name is a key of the object differ. -/
def OnlyMentioned {X : Ext} (keys : List Str) : (fs : Fields) → (old new : FVals X fs) → Prop
  | .nil, _, _ => True
  | .cons f _ fs, (v, vs), (w, ws) => (v = w ∨ ∃ k ∈ keys, Named f k) ∧ OnlyMentioned keys fs vs ws

/-- All fields but the ones tagged `json:"-"` (or not exported) are the same. -/
def SameWritten {X : Ext} : (fs : Fields) → (v w : FVals X fs) → Prop
  | .nil, _, _ => True
  | .cons f _ fs, (v, vs), (w, ws) => (f.exported = true → f.tag ≠ lit "-" → v = w) ∧ SameWritten fs vs ws

/-- The fields tagged `json:"-"` are the same. -/
def SameSkipped {X : Ext} : (fs : Fields) → (v w : FVals X fs) → Prop
  | .nil, _, _ => True
  | .cons f _ fs, (v, vs), (w, ws) => (f.tag = lit "-" → v = w) ∧ SameSkipped fs vs ws

/-- Every field with the node its value is marshalled to, in declaration order. -/
def rows {X : Ext} (O : Order) : (fs : Fields) → FVals X fs → List (FieldInfo × Res (Node X))
  | .nil, _ => []
  | .cons f t fs, (v, vs) => (f, marshal O t v) :: rows O fs vs

/-- What `omitempty` should drop: nil, the empty string, zero, no digits. -/
def Droppable {X : Ext} (n : Node X) : Prop := n = .nil ∨ n = .str [] ∨ n = .int 0 ∨ n = .digits [] ∨ ∃ f, n = .float f ∧ X.fIsZero f = true

end Verif.Enc

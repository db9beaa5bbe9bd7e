import Verif.Enc.TypedSpec
/-!
# Types on which marshalling and unmarshalling should be safe
-/
set_option autoImplicit false
namespace Verif.Enc
open Verif.Strconv

mutual
/-- No channels, no nodes, no pointers to types with a value `MarshalJSON`, valid tags. -/
def Ty.marshalSafe : Ty → Bool
  | .chan | .node => false
  | .ptr t => !t.valueMarshaler && t.marshalSafe
  | .slice t | .array _ t | .map _ t => t.marshalSafe
  | .struct fs => fs.marshalSafe
  | _ => true
def Fields.marshalSafe : Fields → Bool
  | .nil => true
  | .cons f t fs => (!f.exported || ((parseTag f).isSome && t.marshalSafe)) && fs.marshalSafe
end

mutual
/-- No interfaces with methods, valid tags. -/
def Ty.unmarshalSafe : Ty → Bool
  | .iface => false
  | .ptr t | .slice t | .array _ t | .map _ t => t.unmarshalSafe
  | .struct fs => fs.unmarshalSafe
  | _ => true
def Fields.unmarshalSafe : Fields → Bool
  | .nil => true
  | .cons f t fs => (!f.exported || ((parseTag f).isSome && t.unmarshalSafe)) && fs.unmarshalSafe
end

mutual
/-- All maps have string keys. -/
def Ty.strKeys : Ty → Bool
  | .map k t => decide (k = .str) && t.strKeys
  | .ptr t | .slice t | .array _ t => t.strKeys
  | .struct fs => fs.strKeys
  | _ => true
def Fields.strKeys : Fields → Bool
  | .nil => true
  | .cons _ t fs => t.strKeys && fs.strKeys
end

mutual
/-- Maps have distinct keys: true of every Go value. -/
def WFVal {X : Ext} : (t : Ty) → Val X t → Prop
  | .ptr t, v => match (v : Option (Val X t)) with
    | none => True
    | some x => WFVal t x
  | .slice t, v => match (v : Option (List (Val X t))) with
    | none => True
    | some l => ∀ x ∈ l, WFVal t x
  | .array n t, v => ∀ x ∈ (v : { l : List (Val X t) // l.length = n }).1, WFVal t x
  | .map _ t, v => match (v : Option (List (Str × Val X t))) with
    | none => True
    | some m => SortedKeys m ∧ ∀ e ∈ m, WFVal t e.2
  | .struct fs, v => WFVals fs v
  | _, _ => True
def WFVals {X : Ext} : (fs : Fields) → FVals X fs → Prop
  | .nil, _ => True
  | .cons _ t fs, (v, vs) => WFVal t v ∧ WFVals fs vs
end

end Verif.Enc

import Verif.Sync.MapModel
import Verif.Enc.Marshal
import Verif.Enc.Unmarshal
/-!
# /repo/utils/sync/map.go L14-41: a `sync.Map` as an `enc.Marshaler` and `enc.Unmarshaler`

Keys are represented by the text they are marshalled to, as in `Enc` (`Ty.map`); values are of a type of the typed layer of `enc`.
-/
set_option autoImplicit false
namespace Verif.Sync
open Verif.Enc Verif.Strconv

/-- Which values of a type are nil interfaces (map.go L43-50, L88-90 convert them to `any`). -/
def isNilIface {X : Ext} : (t : Ty) → Val X t → Bool
  | .any, v => match (v : Any X) with
    | .nil => true
    | _ => false
  | .node, v => match (v : Option (Node X)) with
    | none => true
    | some _ => false
  | .iface, _ => true
  | _, _ => false

/-- The values of a type, as stored in the underlying `sync.Map` (map.go L10-12). -/
def ifaceOf (X : Ext) (t : Ty) : Iface (Val X t) where
  zero := zero X t
  isNil := isNilIface t
  nil_zero := by
    intro v h
    cases t with
    | any =>
      change Any X at v
      cases v with
      | nil => rfl
      | _ => cases h
    | node =>
      change Option (Node X) at v
      cases v with
      | none => rfl
      | some n => cases h
    | iface => rfl
    | _ => cases h

/-- `Map` (map.go L17-24), its result as a Go map of the typed layer. -/
def toEntries {X : Ext} {t : Ty} (order : SMap Str (Val X t)) : Go (List (Str × Val X t)) :=
  (rangeErr (E := Unit) (fun (m : List (Str × Val X t)) k v => (insertKey k v m, none)) order []).map (·.1)

/-- `MarshalNode` (map.go L26-29). -/
def marshalMap {X : Ext} (O : Order) (k : KTy) (t : Ty) (order : SMap Str (Val X t)) : Res (Node X) :=
  match toEntries order with
  | .error _ => .panic
  | .ok m => marshal O (.map k t) (some m : Option (List (Str × Val X t)))

/-- `Store` for every entry (map.go L37-39). -/
def storeAll {X : Ext} {t : Ty} (l : List (Str × Val X t)) (m : SMap Str (Val X t)) : SMap Str (Val X t) :=
  l.foldl (fun m e => m.storeV (ifaceOf X t) e.1 e.2) m

/-- `UnmarshalNode` (map.go L31-41): `enc.Unmarshal` takes a `Handler` of its own, which reports nothing. -/
def unmarshalMap {X : Ext} (O : Order) (k : KTy) (t : Ty) (n : Node X) (m : SMap Str (Val X t)) : SMap Str (Val X t) × Status :=
  let r := unmarshal ⟨none⟩ O (.map k t) n (none : Option (List (Str × Val X t)))
  match r.st with
  | .ok => match (r.val : Option (List (Str × Val X t))) with
    | none => (m, .ok)
    | some l => (storeAll (O.perm l) m, .ok)
  | s => (m, s)

/-- The struct itself (map.go L10-12): one field, which is not exported. The methods have pointer receivers, so a map that is held by value, in a field, an element or an
interface, is marshalled as this struct (enc/handler.go L180, L239, L255, L290). -/
def structTy (inner : Ty) : Ty := .struct (.cons { name := lit "m", exported := false, tag := [] } inner .nil)

end Verif.Sync

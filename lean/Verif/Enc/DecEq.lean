import Verif.Enc.Node
/-!
# Equality of nodes is decidable

Only for the concrete examples.
-/
set_option autoImplicit false
namespace Verif.Enc
open Verif.Strconv

variable {X : Ext} [DecidableEq X.F] [DecidableEq X.T]

mutual
/-- Comparing nodes. -/
def Node.decEq : (a b : Node X) → Decidable (a = b)
  | .nil, b => match b with
    | .nil => isTrue rfl
    | .bool _ | .str _ | .int _ | .float _ | .digits _ | .list _ | .map _ | .pairs _ | .time _ | .dur _ => isFalse (by simp)
  | .bool x, b => match b with
    | .bool y => decidable_of_iff (x = y) (by simp)
    | .nil | .str _ | .int _ | .float _ | .digits _ | .list _ | .map _ | .pairs _ | .time _ | .dur _ => isFalse (by simp)
  | .str x, b => match b with
    | .str y => decidable_of_iff (x = y) (by simp)
    | .nil | .bool _ | .int _ | .float _ | .digits _ | .list _ | .map _ | .pairs _ | .time _ | .dur _ => isFalse (by simp)
  | .int x, b => match b with
    | .int y => decidable_of_iff (x = y) (by simp)
    | .nil | .bool _ | .str _ | .float _ | .digits _ | .list _ | .map _ | .pairs _ | .time _ | .dur _ => isFalse (by simp)
  | .float x, b => match b with
    | .float y => decidable_of_iff (x = y) (by simp)
    | .nil | .bool _ | .str _ | .int _ | .digits _ | .list _ | .map _ | .pairs _ | .time _ | .dur _ => isFalse (by simp)
  | .digits x, b => match b with
    | .digits y => decidable_of_iff (x = y) (by simp)
    | .nil | .bool _ | .str _ | .int _ | .float _ | .list _ | .map _ | .pairs _ | .time _ | .dur _ => isFalse (by simp)
  | .time x, b => match b with
    | .time y => decidable_of_iff (x = y) (by simp)
    | .nil | .bool _ | .str _ | .int _ | .float _ | .digits _ | .list _ | .map _ | .pairs _ | .dur _ => isFalse (by simp)
  | .dur x, b => match b with
    | .dur y => decidable_of_iff (x = y) (by simp)
    | .nil | .bool _ | .str _ | .int _ | .float _ | .digits _ | .list _ | .map _ | .pairs _ | .time _ => isFalse (by simp)
  | .list x, b => match b with
    | .list y => have := Node.listDecEq x y; decidable_of_iff (x = y) (by simp)
    | .nil | .bool _ | .str _ | .int _ | .float _ | .digits _ | .map _ | .pairs _ | .time _ | .dur _ => isFalse (by simp)
  | .map x, b => match b with
    | .map y => have := Node.mapDecEq x y; decidable_of_iff (x = y) (by simp)
    | .nil | .bool _ | .str _ | .int _ | .float _ | .digits _ | .list _ | .pairs _ | .time _ | .dur _ => isFalse (by simp)
  | .pairs x, b => match b with
    | .pairs y => have := Node.pairsDecEq x y; decidable_of_iff (x = y) (by simp)
    | .nil | .bool _ | .str _ | .int _ | .float _ | .digits _ | .list _ | .map _ | .time _ | .dur _ => isFalse (by simp)
def Node.listDecEq : (a b : List (Node X)) → Decidable (a = b)
  | [], b => match b with
    | [] => isTrue rfl
    | _ :: _ => isFalse (by simp)
  | n :: l, b => match b with
    | [] => isFalse (by simp)
    | n' :: l' => have := Node.decEq n n'; have := Node.listDecEq l l'; decidable_of_iff (n = n' ∧ l = l') (by simp)
def Node.mapDecEq : (a b : List (Str × Node X)) → Decidable (a = b)
  | [], b => match b with
    | [] => isTrue rfl
    | _ :: _ => isFalse (by simp)
  | (k, n) :: l, b => match b with
    | [] => isFalse (by simp)
    | (k', n') :: l' => have := Node.decEq n n'; have := Node.mapDecEq l l'; decidable_of_iff ((k = k' ∧ n = n') ∧ l = l') (by simp)
def Node.pairsDecEq : (a b : List ((Str × Str) × Node X)) → Decidable (a = b)
  | [], b => match b with
    | [] => isTrue rfl
    | _ :: _ => isFalse (by simp)
  | (k, n) :: l, b => match b with
    | [] => isFalse (by simp)
    | (k', n') :: l' => have := Node.decEq n n'; have := Node.pairsDecEq l l'; decidable_of_iff ((k = k' ∧ n = n') ∧ l = l') (by simp)
end

instance : DecidableEq (Node X) := Node.decEq

end Verif.Enc

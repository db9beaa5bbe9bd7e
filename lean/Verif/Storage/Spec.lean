import Verif.Storage.Model
/-!
# What a key-value store should do
-/
set_option autoImplicit false
namespace Verif.Storage
open Verif.Strconv Verif.Enc

/-- Writes to the store, and edits of records by their owners. -/
inductive Op (X : Ext) where
  | upsert (k : Str) (v : Ref)
  | delete (k : Str)
  | edit (r : Nat) (rec : List (Str × Node X))

/-- Applying an operation. -/
def Op.apply {X : Ext} (w : World X) : Op X → World X
  | .upsert k v => w.upsert k v
  | .delete k => w.delete k
  | .edit r rec => { w with heap := fun r' => if r' = r then rec else w.heap r' }

/-- An empty store. -/
def World.empty {X : Ext} (heap : Nat → List (Str × Node X)) : World X := ⟨heap, []⟩

/-- The record of a key after a history (latest operation first): what the latest write to that very key says. -/
def latest {X : Ext} (k : Str) : List (Op X) → Option Ref
  | [] => none
  | .upsert k' v :: h => if k' = k then some v else latest k h
  | .delete k' :: h => if k' = k then none else latest k h
  | .edit _ _ :: h => latest k h

/-- The world after the first `n` callbacks. -/
def worldAt {X : Ext} {E : Type} (f : World X → Str → Ref → World X × Cb E) (w : World X) (l : List (Str × Ref)) (n : Nat) : World X :=
  (l.take n).foldl (fun w e => (f w e.1 e.2).1) w

/-- What the `n`-th callback (from 0) answers. -/
def answer {X : Ext} {E : Type} (f : World X → Str → Ref → World X × Cb E) (w : World X) (l : List (Str × Ref)) (n : Nat) : Option (Cb E) :=
  (l[n]?).map (fun e => (f (worldAt f w l n) e.1 e.2).2)

/-- A single value, as opposed to lists, maps and pairs. Times and durations are left out (their text is not modelled). -/
def Scalar {X : Ext} : Node X → Prop
  | .nil | .bool _ | .str _ | .int _ | .float _ | .digits _ => True
  | _ => False

end Verif.Storage

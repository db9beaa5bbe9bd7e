import Verif.OMap.Model
/-!
# Specification of `OrderedMap`: an insertion-ordered association list
-/
set_option autoImplicit false
namespace Verif.OMap

variable {K V : Type} [DecidableEq K]

/-- Lookup in an association list. -/
def aget : List (K × V) → K → Option V
  | [], _ => none
  | (k', v) :: l, k => if k' = k then some v else aget l k

/-- Update in place when present, append at the end otherwise. -/
def aput : List (K × V) → K → V → List (K × V)
  | [], k, v => [(k, v)]
  | (k', v') :: l, k, v => if k' = k then (k, v) :: l else (k', v') :: aput l k v

/-- Remove a key. -/
def adel (l : List (K × V)) (k : K) : List (K × V) := l.filter fun p => p.1 ≠ k

/-- Operations of a client and what each returns. -/
inductive Op (K V : Type) where
  | get (k : K)
  | put (k : K) (v : V)
  | delete (k : K)
  | len
  | keys
  | values

inductive Ret (K V : Type) where
  | entry (e : Option V)
  | len (n : Nat)
  | keys (ks : List K)
  | values (vs : List V)
  deriving DecidableEq

/-- Running the model. -/
def OrderedMap.step (m : OrderedMap K V) : Op K V → Go (OrderedMap K V × Ret K V)
  | .get k => do let r ← m.get k; pure (m, .entry r)
  | .put k v => do let (m', r) ← m.put k v; pure (m', .entry r)
  | .delete k => do let (m', r) ← m.delete k; pure (m', .entry r)
  | .len => .ok (m, .len m.len)
  | .keys => .ok (m, .keys m.keys)
  | .values => .ok (m, .values m.values)

def OrderedMap.run (m : OrderedMap K V) : List (Op K V) → Go (OrderedMap K V × List (Ret K V))
  | [] => .ok (m, [])
  | op :: ops => do
    let (m', r) ← m.step op
    let (m'', rs) ← OrderedMap.run m' ops
    pure (m'', r :: rs)

/-- Running the specification. -/
def astep (l : List (K × V)) : Op K V → List (K × V) × Ret K V
  | .get k => (l, .entry (aget l k))
  | .put k v => (aput l k v, .entry (aget l k))
  | .delete k => (adel l k, .entry (aget l k))
  | .len => (l, .len l.length)
  | .keys => (l, .keys (l.map (·.1)))
  | .values => (l, .values (l.map (·.2)))

def arun (l : List (K × V)) : List (Op K V) → List (K × V) × List (Ret K V)
  | [] => (l, [])
  | op :: ops =>
    let (l', r) := astep l op
    let (l'', rs) := arun l' ops
    (l'', r :: rs)

end Verif.OMap

import Verif.Caches.Model
/-!
# Specifications for the caches

`Fifo` is a bounded cache that keeps its items in insertion order and makes room by dropping the oldest ones.
It knows nothing about heaps, indexes or clocks.
-/
namespace Verif.Caches

variable {K V E : Type} [DecidableEq K]

/-- A call on a cache: `get` carries the clock reading and what the miss function answers if asked. -/
inductive Op (K V E : Type) where
  | get (now : Nat) (k : K) (o : Outcome V E)
  | inv (k : K)

/-- Run a list of calls on the model, collecting the results of the `get`s (`none` for invalidations). -/
def LRU.run (c : LRU K V) : List (Op K V E) → Go (LRU K V × List (Option (Res V E)))
  | [] => .ok (c, [])
  | .get now k o :: ops => do
    let (c, r) ← c.get now k o
    let (c, rs) ← LRU.run c ops
    pure (c, some r :: rs)
  | .inv k :: ops => do
    let c ← c.invalidate k
    let (c, rs) ← LRU.run c ops
    pure (c, none :: rs)

/-- Sizes reported by the miss function are not negative, and clock readings of values are after the zero time. -/
def Op.Valid : Op K V E → Prop
  | .get now _ (.ok _ size) => 0 < now ∧ 0 ≤ size
  | .get _ _ (.fail _ _) => True
  | .inv _ => True

/-- One stored item of the specification. -/
structure Item (K V : Type) where
  key : K
  val : V
  size : Int
  deriving DecidableEq, Repr

def total : List (Item K V) → Int
  | [] => 0
  | x :: xs => x.size + total xs

/-- Drop the oldest items while the rest is too big. -/
def fit (max : Int) : List (Item K V) → List (Item K V)
  | [] => []
  | x :: xs => if total (x :: xs) > max then fit max xs else x :: xs

/-- FIFO cache: items oldest first. -/
def fifoGet (max : Int) (items : List (Item K V)) (k : K) (o : Outcome V E) : List (Item K V) × Res V E :=
  match items.find? (fun x => decide (x.key = k)) with
  | some x => (items, { val := x.val, hm := .hit, err := none, called := false })
  | none =>
    match o with
    | .fail v e => (items, { val := v, hm := .err, err := some e, called := true })
    | .ok v size =>
      if size = 0 then (items, { val := v, hm := .no, err := none, called := true })
      else (fit max (items ++ [⟨k, v, size⟩]), { val := v, hm := .miss, err := none, called := true })

def fifoRun (max : Int) (items : List (Item K V)) : List (Op K V E) → List (Item K V) × List (Option (Res V E))
  | [] => (items, [])
  | .get _ k o :: ops =>
    let (items, r) := fifoGet max items k o
    let (items, rs) := fifoRun max items ops
    (items, some r :: rs)
  | .inv k :: ops =>
    let (items, rs) := fifoRun max (items.filter (fun x => decide (x.key ≠ k))) ops
    (items, none :: rs)

/-- The clock readings of the calls, starting after `t`, strictly increase. -/
def Increasing : Nat → List (Op K V E) → Prop
  | _, [] => True
  | t, .get now _ _ :: ops => t < now ∧ Increasing now ops
  | t, .inv _ :: ops => Increasing t ops

end Verif.Caches

namespace Verif.Caches

variable {K V E : Type}

/-- An event that leaves a cached `k` alone: no invalidation of `k`, and lookups of `k` hit. -/
def Quiet (k : K) : Op K V E × Option (Res V E) → Prop
  | (.inv k', _) => k' ≠ k
  | (.get _ k' _, some r) => k' = k → r.hm = .hit
  | (.get _ _ _, none) => True

/-- In history `h` (calls paired with results), the latest relevant event for `k` is a lookup that missed, for which the
miss function returned `v`. -/
def StoredLast (k : K) (v : V) (h : List (Op K V E × Option (Res V E))) : Prop :=
  ∃ pre post now size r, h = pre ++ (Op.get now k (.ok v size), some r) :: post ∧ r.hm = .miss ∧
    ∀ x ∈ post, Quiet k x

/-! ### Specification of the memoising cache: a partial function -/

/-- Calls on the memoising cache. -/
inductive MemOp (K V E : Type) where
  | get (k : K) (o : V × Option E)
  | inv (k : K)

variable [DecidableEq K]

def Mem.run (c : Mem K V) : List (MemOp K V E) → Mem K V × List (Option (Res V E))
  | [] => (c, [])
  | .get k o :: ops => let (c, r) := c.get k o; let (c, rs) := Mem.run c ops; (c, some r :: rs)
  | .inv k :: ops => let (c, rs) := Mem.run (c.invalidate k) ops; (c, none :: rs)

/-- The same calls on a partial function. -/
def memoRun (f : K → Option V) : List (MemOp K V E) → (K → Option V) × List (Option (Res V E))
  | [] => (f, [])
  | .get k (v, e) :: ops =>
    match f k, e with
    | some w, _ => let (f, rs) := memoRun f ops; (f, some ⟨w, .hit, none, false⟩ :: rs)
    | none, some e => let (f, rs) := memoRun f ops; (f, some ⟨v, .err, some e, true⟩ :: rs)
    | none, none =>
      let (f, rs) := memoRun (fun x => if x = k then some v else f x) ops
      (f, some ⟨v, .miss, none, true⟩ :: rs)
  | .inv k :: ops =>
    let (f, rs) := memoRun (fun x => if x = k then none else f x) ops
    (f, none :: rs)

end Verif.Caches

import Verif.Base
/-!
# Model of /repo/utils/ordered_map.go
-/
set_option autoImplicit false
namespace Verif.OMap

variable {K V : Type}

/-- ordered_map.go L3-6 `OrderedMap`: slots (a `nil` pointer is `none`) and the key index. The Go map is modelled by its lookup
function. Pairs are only reachable through the slot list (they are allocated by `Put`), so no aliasing is lost. -/
structure OrderedMap (K V : Type) where
  list : List (Option (K × V))
  byKey : K → Option Nat

/-- L13-17 `NewOrderedMap`. -/
def OrderedMap.new : OrderedMap K V := ⟨[], fun _ => none⟩

/-- Reading `this.list[i].Value`: index panic or nil dereference are possible outcomes. ordered_map.go L24-31. -/
def OrderedMap.at (m : OrderedMap K V) (i : Nat) : Go (K × V) := do
  match ← Go.idx m.list i with
  | none => .error .nilDeref
  | some p => .ok p

/-- L24-31 `Get`. -/
def OrderedMap.get [DecidableEq K] (m : OrderedMap K V) (key : K) : Go (Option V) :=
  match m.byKey key with
  | some i => do
    let p ← m.at i
    pure (some p.2)
  | none => .ok none

/-- L33-45 `Put`: new map and the returned `MapEntry` (`Found` is `isSome`). -/
def OrderedMap.put [DecidableEq K] (m : OrderedMap K V) (key : K) (value : V) : Go (OrderedMap K V × Option V) :=
  match m.byKey key with
  | some i => do
    let p ← m.at i
    let l ← Go.set m.list i (some (p.1, value))
    pure ({ m with list := l }, some p.2)
  | none =>
    .ok ({ list := m.list ++ [some (key, value)], byKey := fun k => if k = key then some m.list.length else m.byKey k }, none)

/-- L48-58 `Delete`. -/
def OrderedMap.delete [DecidableEq K] (m : OrderedMap K V) (key : K) : Go (OrderedMap K V × Option V) :=
  match m.byKey key with
  | some i => do
    let p ← m.at i
    let l ← Go.set m.list i none
    pure ({ list := l, byKey := fun k => if k = key then none else m.byKey k }, some p.2)
  | none => .ok (m, none)

/-- L61-69: the loop of `Range` over the slots; the callback may keep state `σ` (closures do) but not touch the map; one that does is modelled in OMap/Reenter.lean. -/
def rangeLoop {σ E : Type} (f : σ → K → V → σ × Option E) : List (Option (K × V)) → σ → σ × Option E
  | [], s => (s, none)
  | none :: rest, s => rangeLoop f rest s
  | some (k, v) :: rest, s =>
    match f s k v with
    | (s', some err) => (s', some err)
    | (s', none) => rangeLoop f rest s'

/-- L60-71 `Range`. -/
def OrderedMap.range {σ E : Type} (m : OrderedMap K V) (f : σ → K → V → σ × Option E) (s : σ) : σ × Option E :=
  rangeLoop f m.list s

/-- L73-80 `Len`: counts through `Range`. -/
def OrderedMap.len (m : OrderedMap K V) : Nat :=
  (m.range (E := Unit) (fun n _ _ => (n + 1, none)) 0).1

/-- L82-89 `Keys`. -/
def OrderedMap.keys (m : OrderedMap K V) : List K :=
  (m.range (E := Unit) (fun l k _ => (l ++ [k], none)) []).1

/-- L91-98 `Values`. -/
def OrderedMap.values (m : OrderedMap K V) : List V :=
  (m.range (E := Unit) (fun l _ v => (l ++ [v], none)) []).1

end Verif.OMap

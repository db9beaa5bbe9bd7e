import Verif.Base
/-!
# Model of /repo/utils/sync/map.go

`sync.Map` operations are atomic; the content is an association list from keys to `any` values. An `any` holding a nil interface is
`none`. `isNil v` says that converting the typed value `v : V` to `any` gives a nil `any` (only possible when `V` is an interface
type and `v` its nil value, which is also its zero value: that is the law `nil_zero`).
-/
set_option autoImplicit false
namespace Verif.Sync

variable {K V : Type}

/-- The value type: its zero and which values become a nil `any`. map.go L43-50. -/
structure Iface (V : Type) where
  zero : V
  isNil : V → Bool
  nil_zero : ∀ v, isNil v = true → v = zero

/-- Conversion to `any`. map.go L70-90. -/
def Iface.toAny (i : Iface V) (v : V) : Option V := if i.isNil v then none else some v

/-- Content of the underlying `sync.Map`. map.go L10-12. -/
abbrev SMap (K V : Type) := List (K × Option V)

variable [DecidableEq K]

/-- sync.Map.Load. For map.go L43-68. -/
def SMap.load (m : SMap K V) (k : K) : Option (Option V) :=
  match m.find? (fun p => p.1 = k) with
  | some p => some p.2
  | none => none

/-- sync.Map.Delete. For map.go L108-119. -/
def SMap.remove (m : SMap K V) (k : K) : SMap K V := m.filter (fun p => p.1 ≠ k)

/-- sync.Map.Store. For map.go L70-90. -/
def SMap.store (m : SMap K V) (k : K) (v : Option V) : SMap K V := (k, v) :: m.remove k

/-- `if val == nil { zero } else val.(V)` (the assertion succeeds: only values of type V are stored). map.go L43-50, L61-68. -/
def Iface.back (i : Iface V) : Option V → V
  | none => i.zero
  | some v => v

/-- map.go L43-50 `Get`. -/
def SMap.get (i : Iface V) (m : SMap K V) (k : K) : V :=
  match m.load k with
  | some a => i.back a
  | none => i.zero

/-- map.go L52-59 `IsEmpty`: whether the underlying Range finds nothing. -/
def SMap.isEmpty (m : SMap K V) : Bool := match m with | [] => true | _ :: _ => false

/-- map.go L61-68 `Load`. -/
def SMap.loadV (i : Iface V) (m : SMap K V) (k : K) : V × Bool :=
  match m.load k with
  | some a => (i.back a, true)
  | none => (i.zero, false)

/-- map.go L79-86 `LoadOrStore` (L70-77 `GetOrStore` is its first component). -/
def SMap.loadOrStore (i : Iface V) (m : SMap K V) (k : K) (v : V) : SMap K V × (V × Bool) :=
  match m.load k with
  | some a => (m, (i.back a, true))
  | none => (m.store k (i.toAny v), (i.back (i.toAny v), false))

/-- map.go L88-90 `Store`. -/
def SMap.storeV (i : Iface V) (m : SMap K V) (k : K) (v : V) : SMap K V := m.store k (i.toAny v)

/-- map.go L112-119 `LoadAndDelete`. -/
def SMap.loadAndDelete (i : Iface V) (m : SMap K V) (k : K) : SMap K V × (V × Bool) :=
  match m.load k with
  | some a => (m.remove k, (i.back a, true))
  | none => (m, (i.zero, false))

/-- map.go L92-96 `Range` over the entries in the order `order` that the runtime chooses; the callback keeps state.
A nil `any` fails the type assertion `val.(V)`. -/
def rangeV {σ : Type} (f : σ → K → V → σ × Bool) : SMap K V → σ → Go σ
  | [], s => .ok s
  | (_, none) :: _, _ => .error .typeAssert
  | (k, some v) :: rest, s =>
    match f s k v with
    | (s', true) => rangeV f rest s'
    | (s', false) => .ok s'

/-- map.go L99-106 `RangeErr`. -/
def rangeErr {σ E : Type} (f : σ → K → V → σ × Option E) (order : SMap K V) (s : σ) : Go (σ × Option E) :=
  rangeV (σ := σ × Option E) (fun st k v => let (s', e) := f st.1 k v; ((s', e), e.isNone)) order (s, none)

/-- map.go L17-24 `Map`: the returned Go map, as its lookup function. -/
def toMap (order : SMap K V) : Go (K → Option V) := do
  let (m, _) ← rangeErr (E := Unit) (fun (m : K → Option V) k v => (fun k' => if k' = k then some v else m k', none)) order (fun _ => none)
  pure m

end Verif.Sync

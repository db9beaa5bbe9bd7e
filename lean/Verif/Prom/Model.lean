import Verif.Prom.Quote
/-!
# /repo/utils/prom: labels, counters, gauges, histograms, registry

`sync.Map` (see Verif/Sync/MapModel.lean) is used through its refinement: a map from keys to values. Floating point numbers are an
opaque type `F` with `≤`, `+` and 0. Counts (`int`) are natural numbers: overflow after 2^63 observations is not modelled.
-/
set_option autoImplicit false
namespace Verif.Prom

/-- The `float64` operations used. histogram.go L38-54, counter.go L27-32. -/
structure FloatOps (F : Type) where
  zero : F
  add : F → F → F
  le : F → F → Bool

/-- labels.go L13-15: the loop, starting at index `i`. -/
def stringifyFrom (isPrint : Char → Bool) : List (List Char) → List GoStr → List Char
  | k :: ks, v :: vs => ',' :: (k ++ ('=' :: quote isPrint v)) ++ stringifyFrom isPrint ks vs
  | _, _ => []

/-- /repo/utils/prom/labels.go L8-20 `stringify`. Label names are printed with `%s`, values with `%q`. -/
def stringify (isPrint : Char → Bool) (keys : List (List Char)) (vals : List GoStr) : Go (List Char) :=
  if keys.length ≠ vals.length then .error .explicit
  else match stringifyFrom isPrint keys vals with
    | [] => .ok []
    | _ :: s => .ok s

/-- A map from rendered labels. counter.go L10-16, gauge.go L23-27, histogram.go L11-17. -/
abbrev LMap (V : Type) := List Char → Option V

/-- Replacing the entry of one key: counter.go L23-25, gauge.go L56-63, histogram.go L33-36. -/
def LMap.set {V : Type} (m : LMap V) (k : List Char) (v : Option V) : LMap V := fun k' => if k' = k then v else m k'

/-! ### Counter -/

/-- /repo/utils/prom/counter.go L23-32 `Counter.Observe`. -/
def counterObserve {F : Type} (fo : FloatOps F) (isPrint : Char → Bool) (names : List (List Char)) (m : LMap F) (v : F) (labels : List GoStr) : Go (LMap F) := do
  let k ← stringify isPrint names labels
  .ok (m.set k (some (fo.add ((m k).getD fo.zero) v)))

/-! ### Histogram -/

/-- /repo/utils/prom/histogram.go L21-26 `histogramTS` -/
structure TS (F : Type) where
  buckets : List Nat
  sum : F
  count : Nat

/-- `&histogramTS{}` histogram.go L33-36. -/
def TS.new {F : Type} (fo : FloatOps F) : TS F := { buckets := [], sum := fo.zero, count := 0 }

/-- histogram.go L46-48: growing the bucket slice. -/
def grow (n : Nat) (b : List Nat) : List Nat := b ++ List.replicate (n - b.length) 0

/-- histogram.go L49-53: the loop over the bounds, from index `i`. -/
def bump {F : Type} (fo : FloatOps F) (v : F) : Nat → List F → List Nat → Go (List Nat)
  | _, [], b => .ok b
  | i, le :: les, b =>
    if fo.le v le then do
      let x ← Go.idx b (i : Int)
      let b ← Go.set b (i : Int) (x + 1)
      bump fo v (i + 1) les b
    else bump fo v (i + 1) les b

/-- histogram.go L38-54 `observe`. -/
def TS.observe {F : Type} (fo : FloatOps F) (les : List F) (t : TS F) (v : F) : Go (TS F) := do
  let b ← bump fo v 0 les (grow les.length t.buckets)
  .ok { buckets := b, sum := fo.add t.sum v, count := t.count + 1 }

/-- What `print` reports of one series: (bound, count) per bucket, +Inf, sum, count (histogram.go L74-123, without the text). -/
structure Printed (F : Type) where
  buckets : List (F × Nat)
  inf : Nat
  sum : F
  count : Nat

/-- histogram.go L78-84 / L100-106: reading `buckets[i]` for every bound. -/
def printBuckets {F : Type} (b : List Nat) : Nat → List F → Go (List (F × Nat))
  | _, [] => .ok []
  | i, le :: les => do
    let x ← Go.idx b (i : Int)
    let rest ← printBuckets b (i + 1) les
    .ok ((le, x) :: rest)

/-- histogram.go L74-123 `histogramTS.print`. -/
def TS.print {F : Type} (les : List F) (t : TS F) : Go (Printed F) := do
  let bs ← printBuckets t.buckets 0 les
  .ok { buckets := bs, inf := t.count, sum := t.sum, count := t.count }

/-- histogram.go L33-36 `Histogram.Observe`, as one step. -/
def histObserve {F : Type} (fo : FloatOps F) (isPrint : Char → Bool) (names : List (List Char)) (les : List F) (m : LMap (TS F)) (v : F) (labels : List GoStr) : Go (LMap (TS F)) := do
  let k ← stringify isPrint names labels
  let t ← ((m k).getD (TS.new fo)).observe fo les v
  .ok (m.set k (some t))

/-- Concurrent use: `GetOrStore` and `observe` of one `Observe` call are separate atomic steps, and so is `print` of one series. histogram.go L33-54, L56-123. -/
inductive HAct (F : Type) where
  /-- `val.GetOrStore(key, &histogramTS{})` (histogram.go L34) -/
  | store (key : List Char)
  /-- `observe` under the series' lock (L35, L38-54) -/
  | observe (key : List Char) (v : F)
  /-- `print` of the series under its lock (L70, L74-123) -/
  | print (key : List Char)

/-- One atomic step; a panic is an error. Steps on a missing series cannot occur in an execution: `observe` follows the `store` of the
same call, and `Range` yields existing series only. histogram.go L33-54, L56-123. -/
def hstep {F : Type} (fo : FloatOps F) (les : List F) (m : LMap (TS F)) : HAct F → Go (LMap (TS F))
  | .store k =>
    match m k with
    | none => .ok (m.set k (some (TS.new fo)))
    | some _ => .ok m
  | .observe k v =>
    match m k with
    | none => .error .nilDeref
    | some t => do
      let t ← t.observe fo les v
      .ok (m.set k (some t))
  | .print k =>
    match m k with
    | none => .error .nilDeref
    | some t => do
      let _ ← t.print les
      .ok m

/-- A schedule of atomic steps. histogram.go L33-72. -/
def hrun {F : Type} (fo : FloatOps F) (les : List F) (m : LMap (TS F)) : List (HAct F) → Go (LMap (TS F))
  | [] => .ok m
  | a :: as => do
    let m ← hstep fo les m a
    hrun fo les m as

/-! ### Gauge -/

/-- /repo/utils/prom/gauge.go L11-13 `gaugeEntry`: a function (by name) or a pointer to a counter. -/
inductive Entry where
  | func (f : Nat)
  | counter (ptr : Nat)
  deriving DecidableEq

/-- A gauge and the counters allocated for it. gauge.go L23-44. -/
structure GaugeSt where
  slots : LMap Entry
  counters : List Int64

/-- The operations on a gauge and its counters: gauge.go L30-63. -/
inductive GOp where
  /-- gauge.go L30-34 `Gauge.Counter` -/
  | counter (labels : List GoStr)
  /-- gauge.go L46-49 `Inc` on the counter `ptr` -/
  | inc (ptr : Nat) (amt : Int64)
  /-- gauge.go L51-54 `Dec` -/
  | dec (ptr : Nat) (amt : Int64)
  /-- gauge.go L56-63 `SetFunc`; `none` is nil -/
  | setFunc (f : Option Nat) (labels : List GoStr)

/-- gauge.go L30-63. `Counter` returns the pointer; a slot holding a function makes the type assertion panic. -/
def gstep (isPrint : Char → Bool) (names : List (List Char)) (s : GaugeSt) : GOp → Go (GaugeSt × Option Nat)
  | .counter labels => do
    let k ← stringify isPrint names labels
    match s.slots k with
    | some (.counter p) => .ok (s, some p)
    | some (.func _) => .error .typeAssert
    | none =>
      let p := s.counters.length
      .ok ({ slots := s.slots.set k (some (.counter p)), counters := s.counters ++ [0] }, some p)
  | .inc p amt => .ok ({ s with counters := s.counters.modify p (fun x => x + amt) }, none)
  | .dec p amt => .ok ({ s with counters := s.counters.modify p (fun x => x + -amt) }, none)
  | .setFunc f labels => do
    let k ← stringify isPrint names labels
    .ok ({ s with slots := s.slots.set k (f.map .func) }, none)

/-! ### Registry -/

/-- The registry: /repo/utils/prom/metric.go L13-18. Nil metrics are in `Prom/Reg.lean`. -/
abbrev Registry (M : Type) := List (String × M)

/-- metric.go L20-29 `Register`. -/
def register {M : Type} (r : Registry M) (name : String) (m : M) : Go (Registry M) :=
  match r.lookup name with
  | some _ => .error .explicit
  | none => .ok (r ++ [(name, m)])

/-- metric.go L31-45 `Range`, for an iteration order `out` of the copied map. -/
def rangeOut {M E St : Type} (f : String → M → St → St × Option E) : List (String × M) → St → St × Option E
  | [], s => (s, none)
  | (n, m) :: l, s =>
    match f n m s with
    | (s, some e) => (s, some e)
    | (s, none) => rangeOut f l s

end Verif.Prom

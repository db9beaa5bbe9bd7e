import Verif.Enc.Render
/-!
# The in-memory key-value store (storage/keyvalue.go, storage/filter.go, storage/storage.go)

Records are Go maps, that is references: the store keeps the reference it was given. `World` holds the heap of records and the store.
The store's mutex makes each operation atomic; `Range` calls back without holding it, so a callback may use the store (it gets and
returns the whole world). Logging is not modelled.
-/
set_option autoImplicit false
namespace Verif.Storage
open Verif.Strconv Verif.Enc

/-- A reference to a record; a nil `enc.Map` is `none`. keyvalue.go L19-22. -/
abbrev Ref := Option Nat

/-- The heap and the store's `data` map (key-sorted list; the order Go iterates in is a parameter of `range`). keyvalue.go L19-22. -/
structure World (X : Ext) where
  heap : Nat → List (Str × Node X)
  data : List (Str × Ref)

/-- The record behind a reference (a nil map reads as empty). keyvalue.go L98-102. -/
def World.record {X : Ext} (w : World X) : Ref → List (Str × Node X)
  | none => []
  | some r => w.heap r

/-- `Get` (storage/keyvalue.go L32-37): `this.data[key]`, the zero value (nil) if absent; never an error. -/
def World.get {X : Ext} (w : World X) (key : Str) : Ref := (lookupKey key w.data).getD none

/-- `Upsert` (storage/keyvalue.go L39-44) -/
def World.upsert {X : Ext} (w : World X) (key : Str) (val : Ref) : World X := { w with data := insertKey key val w.data }

/-- `Delete` (storage/keyvalue.go L46-51) -/
def World.delete {X : Ext} (w : World X) (key : Str) : World X := { w with data := w.data.filter (fun e => e.1 ≠ key) }

/-- `Filter` (storage/filter.go L5-9); `val` is an interface and may be nil. -/
structure Filter (X : Ext) where
  field : Str
  cmp : Str
  val : Option (Node X)

/-- Why a check did not give an answer. keyvalue.go L98-112. -/
inductive Fail where
  /-- "unsupported cmp operator" -/
  | unsupported (cmp : Str)
  /-- calling `GoString` on a nil `Val`: a nil pointer panic -/
  | nilPanic
  deriving DecidableEq

/-- How the two `GoString` calls of a check order the entries of maps. keyvalue.go L106, L108. -/
structure Orders where
  left : List Str → List Str
  right : List Str → List Str

/-- `Filter.Check` (storage/keyvalue.go L98-112) -/
def Filter.check {X : Ext} (isPrint : Char → Bool) (o : Orders) (f : Filter X) (val : List (Str × Node X)) : Except Fail Bool :=
  let v := (lookupKey f.field val).getD .nil
  if f.cmp = lit "EQ" then
    match f.val with
    | some n => .ok (decide (v.goString isPrint o.left = n.goString isPrint o.right))
    | none => .error .nilPanic
  else if f.cmp = lit "NEQ" then
    match f.val with
    | some n => .ok (decide (v.goString isPrint o.left ≠ n.goString isPrint o.right))
    | none => .error .nilPanic
  else .error (.unsupported f.cmp)

/-- `check` (storage/keyvalue.go L88-96) -/
def checkAll {X : Ext} (isPrint : Char → Bool) (o : Orders) (val : List (Str × Node X)) : List (Filter X) → Except Fail Bool
  | [] => .ok true
  | f :: fs => match f.check isPrint o val with
    | .error e => .error e
    | .ok false => .ok false
    | .ok true => checkAll isPrint o val fs

/-- The locked part of `Range` (storage/keyvalue.go L59-73): the matching records, in iteration order, or the first failure. -/
def collect {X : Ext} (isPrint : Char → Bool) (o : Orders) (w : World X) (fs : List (Filter X)) : List (Str × Ref) → Except Fail (List (Str × Ref))
  | [] => .ok []
  | (k, v) :: l => match checkAll isPrint o (w.record v) fs with
    | .error e => .error e
    | .ok ok => match collect isPrint o w fs l with
      | .error e => .error e
      | .ok list => .ok (if ok then (k, v) :: list else list)

/-- What a callback returns. keyvalue.go L78-83. -/
inductive Cb (E : Type) where
  | nil
  /-- `storage.EOD`, compared with `==` -/
  | eod
  | err (e : E)
  deriving DecidableEq

/-- What `Range` returns. keyvalue.go L53-86. -/
inductive RangeErr (E : Type) where
  | check (f : Fail)
  | cb (e : E)
  deriving DecidableEq

/-- The callback loop of `Range` (storage/keyvalue.go L77-85): final world, returned error, and the calls made. -/
def callbacks {X : Ext} {E : Type} (f : World X → Str → Ref → World X × Cb E) (w : World X) :
    List (Str × Ref) → World X × Option E × List (Str × Ref)
  | [] => (w, none, [])
  | (k, v) :: l => match f w k v with
    | (w, .nil) => let r := callbacks f w l; (r.1, r.2.1, (k, v) :: r.2.2)
    | (w, .eod) => (w, none, [(k, v)])
    | (w, .err e) => (w, some e, [(k, v)])

/-- `Range` (storage/keyvalue.go L53-86). `iter` is the order in which Go iterates over the store. -/
def World.range {X : Ext} {E : Type} (isPrint : Char → Bool) (o : Orders) (iter : List (Str × Ref) → List (Str × Ref)) (w : World X)
    (f : World X → Str → Ref → World X × Cb E) (fs : List (Filter X)) : World X × Option (RangeErr E) × List (Str × Ref) :=
  match collect isPrint o w fs (iter w.data) with
  | .error e => (w, some (.check e), [])
  | .ok list => let r := callbacks f w list; (r.1, r.2.1.map .cb, r.2.2)

end Verif.Storage

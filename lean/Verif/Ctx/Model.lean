import Verif.Base
/-!
# Contexts: /repo/ctx/{tags,span,detach,helper}.go and the `context` package underneath

A context value is a chain of wrappers. The standard library's `valueCtx`, `cancelCtx` and `timerCtx` are modelled by what their
`Value`, `Done`, `Err` and `Deadline` methods are documented to do (Go 1.20, the version of /repo/go.mod); this is an assumption.
-/
set_option autoImplicit false
namespace Verif.Ctx

/-- Keys users pass to `WithValue`: strings, or values of their own types. /repo/ctx/helper.go L13-15. -/
inductive UKey where
  | str (s : String)
  | other (n : Nat)
  deriving DecidableEq

/-- A context. /repo/ctx/tags.go L8-12, /repo/ctx/span.go L10-14, /repo/ctx/detach.go L10-12, /repo/ctx/helper.go L8-36. -/
inductive Ctx where
  /-- `context.Background()` / `context.TODO()` -/
  | background
  /-- `context.WithValue` (/repo/ctx/helper.go L13-15) with a user key -/
  | value (k : UKey) (v : Nat) (p : Ctx)
  /-- `context.WithValue(c, configKey{}, conf)` (/repo/ctx/log/log.go L164-166); `ptr` is the `*config` -/
  | config (ptr : Nat) (p : Ctx)
  /-- `cancelCtx` / `timerCtx` with identity `id` (/repo/ctx/helper.go L8-11, L21-24, L30-36) -/
  | cancel (id : Nat) (deadline : Option Nat) (p : Ctx)
  /-- /repo/ctx/tags.go L8-12 `tagC` -/
  | tag (key json : String) (p : Ctx)
  /-- /repo/ctx/span.go L10-14 `trackingCtx` -/
  | tracking (id : String) (last : Nat) (p : Ctx)
  /-- /repo/ctx/detach.go L10-12 `detachedC` -/
  | detached (p : Ctx)
  deriving DecidableEq

/-- Keys of `Value` calls, except for `tagRangeFunc`, which carries a callback (see `rangeTag`). /repo/ctx/tags.go L61-77, /repo/ctx/span.go L41-51. -/
inductive Key where
  | user (k : UKey)
  | config
  | trackingNext
  | trackingGet
  /-- the private `&cancelCtxKey` of the context package -/
  | cancelCtx
  deriving DecidableEq

/-- Results of `Value` calls. /repo/ctx/tags.go L61-77, /repo/ctx/span.go L41-51. -/
inductive Val where
  | user (n : Nat)
  | json (s : String)
  | str (s : String)
  | config (ptr : Nat)
  | cancelCtx (id : Nat)
  deriving DecidableEq

/-- `fmt.Sprintf("%x", n)`. Called in /repo/ctx/span.go L54-62. -/
def hex (n : Nat) : String := String.ofList (Nat.toDigits 16 n)

/-- `c.Value(k)`: /repo/ctx/tags.go L61-77, /repo/ctx/span.go L41-51, /repo/ctx/detach.go L14-16, and the standard wrappers.
`trackingCtx.Value` has a value receiver: the incremented counter is that of a copy, so nothing is stored back. -/
def value (k : Key) : Ctx → Option Val
  | .background => none
  | .value uk v p => if k = .user uk then some (.user v) else value k p
  | .config ptr p => if k = .config then some (.config ptr) else value k p
  | .cancel id _ p => if k = .cancelCtx then some (.cancelCtx id) else value k p
  | .tag key json p => if k = .user (.str key) then some (.json json) else value k p
  | .tracking id last p =>
    match k with
    | .trackingNext => some (.str (id ++ "." ++ hex (last + 1)))
    | .trackingGet => some (.str id)
    | k => value k p
  | .detached p => value k p

/-- `c.Value(tagRangeFunc(fn))`, with the callback's effects as a state: /repo/ctx/tags.go L63-69; every other wrapper passes the
unknown key to its parent. -/
def valueRange {St E : Type} (fn : String → String → St → St × Option E) : Ctx → St → St × Option E
  | .background, s => (s, none)
  | .value _ _ p, s => valueRange fn p s
  | .config _ p, s => valueRange fn p s
  | .cancel _ _ p, s => valueRange fn p s
  | .tag key json p, s =>
    match valueRange fn p s with
    | (s', some e) => (s', some e)
    | (s', none) => fn key json s'
  | .tracking _ _ p, s => valueRange fn p s
  | .detached p, s => valueRange fn p s

/-- /repo/ctx/tags.go L44-57 `RangeTag`; `none` is the nil context. -/
def rangeTag {St E : Type} (c : Option Ctx) (fn : String → String → St → St × Option E) (s : St) : St × Option E :=
  match c with
  | none => (s, none)
  | some c => valueRange fn c s

/-- Go's `map[string]JSON`. /repo/ctx/log/log.go L35-42. -/
abbrev Tags := String → Option String

/-- `m[k] = v`. /repo/ctx/log/log.go L35-42. -/
def Tags.set (m : Tags) (k v : String) : Tags := fun k' => if k' = k then some v else m k'

/-- /repo/ctx/log/log.go L35-42 `ExtractTags`. -/
def extractTags (c : Option Ctx) : Tags :=
  (rangeTag (E := Empty) c (fun k j (out : Tags) => (out.set k j, none)) (fun _ => none)).1

/-- /repo/ctx/span.go L17-26 `WithTracking`; `uuid` is the fresh id, `quote` the JSON encoding of a string. -/
def withTracking (quote : String → String) (uuid : String) (c : Ctx) (suggest : String) : Ctx :=
  let id := if suggest = "" then uuid else suggest
  .tracking id 0 (.tag "tracking-id" (quote id) c)

/-- /repo/ctx/span.go L30-37 `GetTracking`. -/
def getTracking (c : Ctx) : String :=
  match value .trackingGet c with
  | some (.str s) => s
  | _ => ""

/-- /repo/ctx/span.go L54-62 `Span`; `cid` is the identity of the new cancel context. -/
def span (quote : String → String) (uuid : String) (cid : Nat) (c : Ctx) : Ctx :=
  let c := .cancel cid none c
  match value .trackingNext c with
  | some (.str k) => withTracking quote uuid c k
  | _ => withTracking quote uuid c ""

/-- `c.Deadline()`: /repo/ctx/detach.go L18-20 and the standard wrappers. -/
def deadline : Ctx → Option Nat
  | .background => none
  | .value _ _ p => deadline p
  | .config _ p => deadline p
  | .cancel _ (some d) _ => some d
  | .cancel _ none p => deadline p
  | .tag _ _ p => deadline p
  | .tracking _ _ p => deadline p
  | .detached _ => none

/-- The identity of the cancel context whose `Done` channel `c.Done()` returns, `none` for a nil channel:
/repo/ctx/detach.go L22-24, embedding elsewhere. -/
def done : Ctx → Option Nat
  | .background => none
  | .value _ _ p => done p
  | .config _ p => done p
  | .cancel id _ _ => some id
  | .tag _ _ p => done p
  | .tracking _ _ p => done p
  | .detached _ => none

/-- `ctx.WithDeadline` (/repo/ctx/helper.go L34-36): `context.WithDeadline` keeps an earlier deadline of the parent. -/
def withDeadline (id : Nat) (c : Ctx) (d : Nat) : Ctx :=
  match deadline c with
  | some cur => if cur < d then .cancel id none c else .cancel id (some d) c
  | none => .cancel id (some d) c

/-! ### Cancellation: the state of the cancel contexts -/

/-- The cancellation error (`Canceled` or `DeadlineExceeded`) and the cause. /repo/ctx/ctx.go L8-14. -/
structure Cancelled where
  err : Bool
  cause : Nat
  deriving DecidableEq

/-- All cancel contexts created so far (number `i` is at position `i`), and their state. /repo/ctx/helper.go L8-36. -/
structure World where
  nodes : List Ctx
  st : Nat → Option Cancelled

/-- `c.Err()`: /repo/ctx/detach.go L26-28, embedding elsewhere. -/
def err (w : World) (c : Ctx) : Option Cancelled :=
  match done c with
  | none => none
  | some id => w.st id

/-- `ctx.Cause(c)` (/repo/ctx/helper.go L26-28): the context package looks the cancel context up with `Value(&cancelCtxKey)`. -/
def cause (w : World) (c : Ctx) : Option Nat :=
  match value .cancelCtx c with
  | some (.cancelCtx id) => (w.st id).map (·.cause)
  | _ => (err w c).map (·.cause)

/-- The cancel contexts whose cancellation reaches `c`: propagation follows `Done`, so it stops at a detached context. /repo/ctx/detach.go L22-24. -/
def cancelIds : Ctx → List Nat
  | .background => []
  | .value _ _ p => cancelIds p
  | .config _ p => cancelIds p
  | .cancel id _ p => id :: cancelIds p
  | .tag _ _ p => cancelIds p
  | .tracking _ _ p => cancelIds p
  | .detached _ => []

/-- `context.WithCancelCause(parent)` / `WithDeadline`: the new context is cancelled at once if its parent is. /repo/ctx/helper.go L8-11, L21-24, L30-36. -/
def World.create (w : World) (dl : Option Nat) (parent : Ctx) : World :=
  let id := w.nodes.length
  { nodes := w.nodes ++ [.cancel id dl parent], st := fun j => if j = id then err w parent else w.st j }

/-- Cancelling context `id` (by its cancel function or its timer): it and every descendant not yet cancelled take the error. /repo/ctx/ctx.go L12-14. -/
def World.cancel (w : World) (id : Nat) (x : Cancelled) : World :=
  { w with st := fun j =>
      match w.st j, w.nodes[j]? with
      | none, some n => if id ∈ cancelIds n then some x else none
      | s, _ => s }

/-- Every cancel context inside `c` is one that was created in `w`. -/
def Known (w : World) : Ctx → Prop
  | .background => True
  | .value _ _ p => Known w p
  | .config _ p => Known w p
  | .cancel id dl p => w.nodes[id]? = some (.cancel id dl p) ∧ Known w p
  | .tag _ _ p => Known w p
  | .tracking _ _ p => Known w p
  | .detached p => Known w p

/-- Reachable worlds, with the identities cancelled so far. -/
inductive World.Reach : World → List Nat → Prop where
  | init : World.Reach { nodes := [], st := fun _ => none } []
  | create {w : World} {h : List Nat} (dl : Option Nat) (parent : Ctx) : World.Reach w h → Known w parent → World.Reach (w.create dl parent) h
  | cancel {w : World} {h : List Nat} (id : Nat) (x : Cancelled) : World.Reach w h → id < w.nodes.length →
      World.Reach (w.cancel id x) (id :: h)

end Verif.Ctx

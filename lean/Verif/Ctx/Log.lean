import Verif.Ctx.Spec
import Verif.Errors.Spec
/-!
# /repo/ctx/log/log.go: logger configuration and message formatting

Configurations are heap cells: `extractConfig` returns the pointer stored in the context, and `WithLogFunc` / `WithHelper` write
through it. Log functions and helpers are opaque names.
-/
set_option autoImplicit false
namespace Verif.Ctx

/-- log.go L159-162 `config`; `none` is a nil function. -/
structure Config where
  logFunc : Option Nat
  helper : Option Nat
  deriving DecidableEq

/-- The heap of `*config` cells: pointer `i` is position `i`. log.go L159-175. -/
abbrev CHeap := List Config

/-- The configuration pointer stored in a context: `c.Value(configKey{}).(*config)`. log.go L168-175. -/
def configPtr (c : Option Ctx) : Option Nat :=
  match c with
  | none => none
  | some c =>
    match value .config c with
    | some (.config p) => some p
    | _ => none

/-- log.go L168-175 `extractConfig`: the pointer found, or a new empty configuration. -/
def extractConfig (h : CHeap) (c : Option Ctx) : CHeap × Nat :=
  match configPtr c with
  | some p => (h, p)
  | none => (h ++ [⟨none, none⟩], h.length)

/-- log.go L77-81 `WithLogFunc`. -/
def withLogFunc (h : CHeap) (c : Ctx) (l : Nat) : CHeap × Ctx :=
  let (h, p) := extractConfig h (some c)
  (h.modify p (fun conf => { conf with logFunc := some l }), .config p c)

/-- log.go L87-91 `WithHelper`. -/
def withHelper (h : CHeap) (c : Ctx) (f : Nat) : CHeap × Ctx :=
  let (h, p) := extractConfig h (some c)
  (h.modify p (fun conf => { conf with helper := some f }), .config p c)

/-- log.go L140-148: the log function `doLog` uses for a context (`none`: the default one). -/
def loggerOf (h : CHeap) (c : Option Ctx) : Option Nat :=
  let (h, p) := extractConfig h c
  (h[p]?).bind (·.logFunc)

/-- log.go L150-155: the helper used for a context (`none`: the empty function). -/
def helperOf (h : CHeap) (c : Option Ctx) : Option Nat :=
  let (h, p) := extractConfig h c
  (h[p]?).bind (·.helper)

/-- A program state: the heap and the contexts made so far. log.go L77-91. -/
structure LogWorld where
  heap : CHeap
  ctxs : List Ctx

/-- States reachable by any order of configuration calls and other derivations. log.go L77-91. -/
inductive LogWorld.Reach : LogWorld → Prop where
  | init : LogWorld.Reach { heap := [], ctxs := [.background] }
  | wrap {w : LogWorld} (quote : String → String) (c : Ctx) (x : Wrap) : LogWorld.Reach w → c ∈ w.ctxs → (∀ p, x ≠ .config p) →
      LogWorld.Reach { w with ctxs := w.ctxs ++ [x.apply quote c] }
  | logFunc {w : LogWorld} (c : Ctx) (l : Nat) : LogWorld.Reach w → c ∈ w.ctxs →
      LogWorld.Reach { heap := (withLogFunc w.heap c l).1, ctxs := w.ctxs ++ [(withLogFunc w.heap c l).2] }
  | helper {w : LogWorld} (c : Ctx) (f : Nat) : LogWorld.Reach w → c ∈ w.ctxs →
      LogWorld.Reach { heap := (withHelper w.heap c f).1, ctxs := w.ctxs ++ [(withHelper w.heap c f).2] }

/-! ### `FormatMsg` -/

/-- A log argument; `P` is the type of values that are formatted as they are. log.go L177-203. -/
inductive Arg (P S : Type) where
  /-- implements `Loggable`: `LogAs` may read and rewrite the tags (log.go L18-20) -/
  | loggable (logAs : Tags → P × Tags)
  /-- /repo/ctx/log/redacted.go L4-10 `RedactedString` -/
  | redacted (content : String)
  /-- an error that is not `Loggable` -/
  | err (e : Errors.Err S (Option Ctx))
  /-- anything else -/
  | plain (p : P)

variable {P S : Type}

/-- What is reported for one error argument: log.go L186-193 (message, stack, tags of its context). -/
structure ErrInfo (S : Type) where
  msg : String
  stack : Option S
  tags : Option Tags

/-- The functions of the standard library `FormatMsg` calls. log.go L177-203. -/
structure FmtOps (P S : Type) where
  /-- `fmt.Sprintf` on the final arguments -/
  sprintf : String → List (Arg P S) → String
  /-- `json.Marshal` of the error reports; `none` on error -/
  marshalErrs : List (ErrInfo S) → Option String
  /-- the string "***" as an argument value -/
  stars : P
  /-- `err.Error()` -/
  errMsg : Errors.Err S (Option Ctx) → String

/-- log.go L186-193. -/
def errInfo (ops : FmtOps P S) (e : Errors.Err S (Option Ctx)) : ErrInfo S :=
  match e.asCtx with
  | none => { msg := ops.errMsg e, stack := none, tags := none }
  | some (s, none) => { msg := ops.errMsg e, stack := some s, tags := none }
  | some (s, some c) => { msg := ops.errMsg e, stack := some s, tags := some (extractTags (some c)) }

/-- log.go L179-196: the loop over the arguments. The slice is modified in place, so the new arguments are part of the result. -/
def formatLoop (ops : FmtOps P S) : List (Arg P S) → Tags → List (ErrInfo S) → List (Arg P S) × Tags × List (ErrInfo S)
  | [], tags, errs => ([], tags, errs)
  | .loggable f :: as, tags, errs =>
    let (v, tags) := f tags
    let (as, tags, errs) := formatLoop ops as tags errs
    (.plain v :: as, tags, errs)
  | .redacted _ :: as, tags, errs =>
    let (as, tags, errs) := formatLoop ops as tags errs
    (.plain ops.stars :: as, tags, errs)
  | .err e :: as, tags, errs =>
    let (as, tags, errs) := formatLoop ops as tags (errs ++ [errInfo ops e])
    (.err e :: as, tags, errs)
  | .plain p :: as, tags, errs =>
    let (as, tags, errs) := formatLoop ops as tags errs
    (.plain p :: as, tags, errs)

/-- log.go L177-203 `FormatMsg`: the message, the tags, and the caller's argument slice afterwards. -/
def formatMsg (ops : FmtOps P S) (tags : Tags) (f : String) (args : List (Arg P S)) : String × Tags × List (Arg P S) :=
  let (args, tags, errs) := formatLoop ops args tags []
  let tags :=
    if errs.length > 0 then
      match ops.marshalErrs errs with
      | some j => tags.set "error" j
      | none => tags
    else tags
  (ops.sprintf f args, tags, args)

end Verif.Ctx

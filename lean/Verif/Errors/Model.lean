import Verif.Base
/-!
# Go error trees, `errors.Is` / `errors.As`, and the error code of /repo

Error values as trees. Only errors built from the standard library (`errors.New`, `fmt.Errorf` with `%w`, `errors.Join`) and from
/repo (`ctx.Error`, `http.Error`, `utils.errGate`) are modelled; third-party errors with their own `Is`/`As` methods are not.
Values that are compared with `==` carry an identity `id` (the pointer, or the value itself for `errGate{}`).
-/
set_option autoImplicit false
namespace Verif.Errors

/-- An error value. `S` is the type of stack traces, `C` of contexts (both opaque here). /repo/ctx/error.go L27-31, /repo/http/error.go L18-21. -/
inductive Err (S C : Type) where
  /-- a comparable error without cause: `errors.New`, `io.EOF`, `errGate{}`, `fmt.Errorf` without `%w` -/
  | leaf (id : Nat) (msg : String)
  /-- `fmt.Errorf` with one `%w`: a pointer to `wrapError{msg, err}` -/
  | wrap (id : Nat) (msg : String) (err : Err S C)
  /-- `errors.Join`, or `fmt.Errorf` with several `%w`: `Unwrap() []error` -/
  | join (id : Nat) (msg : String) (errs : List (Err S C))
  /-- /repo/ctx/error.go L27-31 `ctx.Error` -/
  | ctxErr (err : Err S C) (stack : S) (c : C)
  /-- /repo/http/error.go L18-21 `http.Error`; `Err` may be nil -/
  | httpErr (code : Int) (err : Option (Err S C))

variable {S C : Type}

/-- What `errors.Is` is asked for: a `ctx.Error` / `*ctx.Error` (not comparable / a fresh pointer, so only the `Is` method
can match), or a comparable error with identity `id`. /repo/ctx/error.go L41-48. -/
inductive Target where
  | ctxError
  | value (id : Nat)
  deriving DecidableEq

mutual
/-- Go's `errors.Is(err, target)` for a non-nil `err`, with the method /repo/ctx/error.go L41-48 `Error.Is` inlined. -/
def Err.is (t : Target) : Err S C → Bool
  | .leaf id _ => t == .value id
  | .wrap id _ e => t == .value id || Err.is t e
  | .join id _ es => t == .value id || isAny t es
  | .ctxErr e _ _ =>
    match t with
    | .ctxError => true
    | .value id => Err.is (.value id) e || Err.is (.value id) e -- the `Is` method, then `Unwrap`
  | .httpErr _ none => false
  | .httpErr _ (some e) => Err.is t e

/-- `errors.Is` over the errors of `Unwrap() []error`, with /repo/ctx/error.go L41-48. -/
def isAny (t : Target) : List (Err S C) → Bool
  | [] => false
  | e :: es => Err.is t e || isAny t es
end

/-- `errors.Is` on a possibly nil error (the target is never nil here). With /repo/ctx/error.go L41-48. -/
def is (err : Option (Err S C)) (t : Target) : Bool :=
  match err with
  | none => false
  | some e => e.is t

mutual
/-- Go's `errors.As(err, &e)` for `e : http.Error`: the first match of the walk. Called in /repo/http/error.go L34-40. -/
def Err.asHttp : Err S C → Option (Int × Option (Err S C))
  | .leaf _ _ => none
  | .wrap _ _ e => e.asHttp
  | .join _ _ es => asHttpAny es
  | .ctxErr e _ _ => e.asHttp
  | .httpErr code e => some (code, e)

/-- `errors.As` over the errors of `Unwrap() []error`; /repo/http/error.go L34-40. -/
def asHttpAny : List (Err S C) → Option (Int × Option (Err S C))
  | [] => none
  | e :: es =>
    match e.asHttp with
    | some r => some r
    | none => asHttpAny es
end

mutual
/-- Go's `errors.As(err, &e)` for `e : ctx.Error`: the stack and context found. Called in /repo/ctx/error.go L50-62. -/
def Err.asCtx : Err S C → Option (S × C)
  | .leaf _ _ => none
  | .wrap _ _ e => e.asCtx
  | .join _ _ es => asCtxAny es
  | .ctxErr _ s c => some (s, c)
  | .httpErr _ none => none
  | .httpErr _ (some e) => e.asCtx

/-- `errors.As` over the errors of `Unwrap() []error`; /repo/ctx/error.go L50-62. -/
def asCtxAny : List (Err S C) → Option (S × C)
  | [] => none
  | e :: es =>
    match e.asCtx with
    | some r => some r
    | none => asCtxAny es
end

/-- `err.Error()`. `codeText` is `fmt.Sprintf("%d %s", code, http.StatusText(code))`, `codeMsg` is `fmt.Sprintf("%d %v", code, err)`. /repo/ctx/error.go L33-35, /repo/http/error.go L23-28. -/
def Err.msg (codeText : Int → String) (codeMsg : Int → String → String) : Err S C → String
  | .leaf _ m => m
  | .wrap _ m _ => m
  | .join _ m _ => m
  | .ctxErr e _ _ => e.msg codeText codeMsg
  | .httpErr code none => codeText code
  | .httpErr code (some e) => codeMsg code (e.msg codeText codeMsg)

/-- /repo/ctx/error.go L50-62 `maybeWrap`. `stack` is what `stack(2, 100)` returns at this call. -/
def maybeWrap (stack : S) (c : C) (err : Err S C) : Err S C :=
  if err.is .ctxError then err
  else if err.is .ctxError then err   -- the second test, with `&Error{}`
  else .ctxErr err stack c

/-- /repo/ctx/error.go L19-24 `WrapError`. -/
def wrapError (stack : S) (c : C) : Option (Err S C) → Option (Err S C)
  | none => none
  | some e => some (maybeWrap stack c e)

/-- What `fmt.Errorf(f, args...)` returns, by the number of `%w` verbs: the message is opaque. Called in /repo/ctx/error.go L14-16, /repo/http/error.go L11-16. -/
def errorf (id : Nat) (msg : String) : List (Err S C) → Err S C
  | [] => .leaf id msg
  | [e] => .wrap id msg e
  | es => .join id msg es

/-- /repo/ctx/error.go L14-16 `NewErrorf`. -/
def newErrorf (stack : S) (c : C) (id : Nat) (msg : String) (wrapped : List (Err S C)) : Err S C :=
  maybeWrap stack c (errorf id msg wrapped)

/-- /repo/http/error.go L11-16 `http.NewErrorf`. -/
def httpNewErrorf (stack : S) (c : C) (code : Int) (id : Nat) (msg : String) (wrapped : List (Err S C)) : Err S C :=
  .httpErr code (some (newErrorf stack c id msg wrapped))

/-- /repo/http/error.go L34-40 `ErrorCode`. -/
def errorCode (err : Option (Err S C)) (dflt : Int) : Int :=
  match err with
  | none => dflt
  | some e =>
    match e.asHttp with
    | some (code, _) => code
    | none => dflt

/-- Identity of the value `errGate{}` (/repo/utils/errors.go L22-24). -/
def gateId : Nat := 0

/-- `errGate{}`. /repo/utils/errors.go L22-24. -/
def gate : Err S C := .leaf gateId "Error: should have been trapped by ErrorGate()"

/-- /repo/utils/errors.go L14-20 `ErrorGate`; `f` may use its argument in any way to build the returned error. -/
def errorGate (f : Err S C → Option (Err S C)) : Option (Err S C) :=
  let err := f gate
  if is err (.value gateId) then none else err

end Verif.Errors

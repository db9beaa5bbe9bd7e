import Verif.Prom.Model
/-!
# Specification vocabulary for metrics
-/
set_option autoImplicit false
namespace Verif.Prom

/-- The values observed under one label tuple, in order. -/
def under {F : Type} (labels : List GoStr) (obs : List (List GoStr × F)) : List F :=
  (obs.filter (fun o => o.1 = labels)).map (·.2)

/-- Running an operation over a list, stopping at a panic. -/
def runAll {A S : Type} (step : S → A → Go S) : S → List A → Go S
  | s, [] => .ok s
  | s, a :: as => do
    let s ← step s a
    runAll step s as

/-- Reading a label value back as the Prometheus text format defines it: only `\\`, `\"` and `\n` are escapes, anything else after a
backslash is malformed, and the value ends at the closing quote. -/
def promUnescape : List Char → Option (List Char)
  | [] => none
  | '"' :: [] => some []
  | '"' :: _ => none
  | '\\' :: '\\' :: r => (promUnescape r).map ('\\' :: ·)
  | '\\' :: '"' :: r => (promUnescape r).map ('"' :: ·)
  | '\\' :: 'n' :: r => (promUnescape r).map ('\n' :: ·)
  | '\\' :: _ => none
  | c :: r => (promUnescape r).map (c :: ·)

/-- The value between the quotes. -/
def promUnquote : List Char → Option (List Char)
  | '"' :: r => promUnescape r
  | _ => none

/-- The abstract gauge: slots by label tuple, and for each counter the exact integer sum of its changes. -/
structure AGauge where
  slots : List GoStr → Option Entry
  sums : List Int

/-- The abstract gauge operations; `none` is a panic. `arity` is the number of label names. -/
def astep (arity : Nat) (s : AGauge) : GOp → Option (AGauge × Option Nat)
  | .counter labels =>
    if labels.length ≠ arity then none
    else match s.slots labels with
      | some (.counter p) => some (s, some p)
      | some (.func _) => none
      | none => some ({ slots := fun l => if l = labels then some (.counter s.sums.length) else s.slots l, sums := s.sums ++ [0] }, some s.sums.length)
  | .inc p amt => some ({ s with sums := s.sums.modify p (· + amt.toInt) }, none)
  | .dec p amt => some ({ s with sums := s.sums.modify p (· - amt.toInt) }, none)
  | .setFunc f labels =>
    if labels.length ≠ arity then none
    else some ({ s with slots := fun l => if l = labels then f.map .func else s.slots l }, none)

/-- The abstract gauge after a sequence of operations. -/
def arun (arity : Nat) : AGauge → List GOp → Option AGauge
  | s, [] => some s
  | s, op :: ops =>
    match astep arity s op with
    | none => none
    | some (s, _) => arun arity s ops

/-- The gauge of the code after a sequence of operations. -/
def grun (isPrint : Char → Bool) (names : List (List Char)) : GaugeSt → List GOp → Go GaugeSt
  | s, [] => .ok s
  | s, op :: ops =>
    match gstep isPrint names s op with
    | .error e => .error e
    | .ok (s, _) => grun isPrint names s ops

end Verif.Prom

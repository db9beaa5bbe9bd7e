import Verif.Enc.Unmarshal
/-!
# Numbers as durations, texts as times (enc/numeric.go L42-44, L61-63, L88-111, enc/scalar.go L40-66)

A `time.Duration` is an `int64` number of nanoseconds. Multiplying floats and converting them to `int64` is a parameter.
-/
set_option autoImplicit false
namespace Verif.Enc.Durations
open Verif.Strconv Verif.Enc

/-- What an `int64` keeps of a number. For enc/numeric.go L43. -/
def wrap64 (i : Int) : Int := (BitVec.ofInt 64 i).toInt

/-- `Integer.Duration` (enc/numeric.go L42-44): a product of `int64`. -/
def intDuration (i unit : Int) : Int := wrap64 (i * unit)

/-- `Float.Duration` (enc/numeric.go L61-63); `mul` is `float64(this) * float64(unit)`. -/
def floatDuration {X : Ext} (mul : X.F → X.F → X.F) (f : X.F) (unit : Int) : Int := X.fToInt (mul f (X.fOfInt unit))

/-- `Digits.MustFloat` (enc/numeric.go L88-94). -/
def mustFloat {X : Ext} (s : Str) : Go X.F :=
  match X.fParse s with
  | some f => .ok f
  | none => .error .explicit

/-- `Digits.MustInteger` (enc/numeric.go L95-101). -/
def mustInteger (s : Str) : Go Int :=
  match parseInt s with
  | some i => .ok i
  | none => .error .explicit

/-- `Digits.IsFloat` (enc/numeric.go L102-104). -/
def isFloat (s : Str) : Bool := s.any fun c => c = '.' || c = 'e' || c = 'E' || c = 'g' || c = 'G'

/-- `Duration` of a numeric node (enc/numeric.go L42-44, L61-63, L105-111); other nodes have no such method. -/
def duration {X : Ext} (mul : X.F → X.F → X.F) (n : Node X) (unit : Int) : Option (Go Int) :=
  match n with
  | .int i => some (.ok (intDuration i unit))
  | .float f => some (.ok (floatDuration mul f unit))
  | .digits s => some (if isFloat s then (mustFloat (X := X) s).map fun f => floatDuration mul f unit else (mustInteger s).map fun i => intDuration i unit)
  | _ => none

/-- In `return t, t.Parse(s)` Go does not say whether `t` is read before or after the call. enc/scalar.go L42, L56. -/
inductive ReadOrder where
  | before | after
deriving DecidableEq

/-- `String.AsDuration` (enc/scalar.go L54-57): what is returned, and whether there is an error; `Parse` leaves the variable alone if it fails (enc/time.go L104-115). -/
def asDuration (X : Ext) (o : ReadOrder) (s : Str) : Int × Bool :=
  match durParse X s with
  | some d => (match o with | .before => 0 | .after => d, true)
  | none => (0, false)

/-- `String.MustDuration` (enc/scalar.go L59-66). -/
def mustDuration (X : Ext) (s : Str) : Go Int :=
  match durParse X s with
  | some d => .ok d
  | none => .error .explicit

/-- `String.AsTime` (enc/scalar.go L40-43). -/
def asTime (X : Ext) (o : ReadOrder) (s : Str) : X.T × Bool :=
  match X.tParse s with
  | some t => (match o with | .before => X.tZero | .after => t, true)
  | none => (X.tZero, false)

/-- `String.MustTime` (enc/scalar.go L45-52). -/
def mustTime (X : Ext) (s : Str) : Go X.T :=
  match X.tParse s with
  | some t => .ok t
  | none => .error .explicit

end Verif.Enc.Durations

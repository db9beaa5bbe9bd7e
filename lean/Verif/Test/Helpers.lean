import Verif.Enc.Render
/-!
# /repo/test: assertion helpers

`t.Logf` and `t.Fatalf` are the two verdicts. A value passed as `any` is described by what `reflect` reports about it.
-/
set_option autoImplicit false
namespace Verif.Test
open Verif.Strconv Verif.Enc

/-- test/util.go L38-41 `res`. -/
structure Res where
  succeed : Bool
  msg : Str

/-- What happens to the test: `t.Logf` (test/assert.go L14-17) or `t.Fatalf` (L19-22). -/
inductive Verdict where
  | ok (msg : Str)
  | fail (msg : Str)

/-- test/util.go L62-69 `res.true`. -/
def Res.expectTrue (r : Res) : Verdict := if r.succeed then .ok r.msg else .fail r.msg

/-- L73-80 `res.false`. -/
def Res.expectFalse (r : Res) : Verdict := if r.succeed then .fail r.msg else .ok r.msg

/-- The test goes on (test/util.go L62-79). -/
def Verdict.passed : Verdict → Bool
  | .ok _ => true
  | .fail _ => false

/-- L57-60 `res.prefix`, with the formatted text. -/
def Res.addPrefix (r : Res) (p : Str) : Res := { r with msg := p ++ lit " ⮕  " ++ r.msg }

/-- test/equals.go L29-35 `equal`. -/
def equal (e g : Str) : Res := if e = g then ⟨true, e⟩ else ⟨false, e ++ lit " != " ++ g⟩

/-- test/util.go L107-116: the replacement of each character. `strings.NewReplacer` with one-byte keys replaces byte by byte. -/
def quoteChar (c : Char) : Str :=
  if c = '`' then ['\\', '`'] else if c = '\\' then ['\\', '\\'] else if c = '\t' then ['\\', 't']
  else if c = '\r' then ['\\', 'r'] else if c = '\n' then ['\\', 'v'] else [c]

/-- test/util.go L107-116 `Quote`. -/
def quote (s : Str) : Str := '`' :: (s.flatMap quoteChar ++ ['`'])

/-- Whether `pat` occurs in `s`: `strings.Contains`. Called in test/strings.go L42-48. -/
def contains (pat : Str) : Str → Bool
  | [] => pat = []
  | c :: cs => pat.isPrefixOf (c :: cs) || contains pat cs

/-- test/strings.go L42-48 `contains`. -/
def containsRes (s pat : Str) : Res := if contains pat s then ⟨true, quote s⟩ else ⟨false, quote pat ++ lit " not in " ++ quote s⟩

/-- The kinds of `reflect`. test/nil.go L19-32, test/empty.go L19-55. -/
inductive Kind where
  | bool | number | array | chan | func | map | ptr | slice | string | struct | unsafePtr
  deriving DecidableEq

/-- A value passed as `any`: the nil interface, or a value of some kind; `isNil` is only meaningful for kinds that can be nil, `len` for those
that have a length, `zero` for structs. test/nil.go L19-32, test/empty.go L19-55. -/
inductive GoVal where
  | nil
  | of (k : Kind) (isNil : Bool) (len : Nat) (zero : Bool)
  deriving DecidableEq

/-- test/nil.go L19-32 `isNil`, without the message. -/
def isNil : GoVal → Bool
  | .nil => true
  | .of k n _ _ =>
    match k with
    | .slice | .map | .chan | .ptr => n
    | _ => false

/-- test/empty.go L19-55 `empty`, without the message. -/
def empty : GoVal → Go Bool
  | .nil => .ok true
  | .of k n len zero =>
    match k with
    | .ptr => .ok n
    | .slice | .map | .chan => if n then .ok true else .ok (len = 0)
    | .string => .ok (len = 0)
    | .struct => .ok zero
    | _ => .error .explicit

/-- test/list.go L26-35 `shift`: the element, the remaining list and whether it succeeded. -/
def shift {α : Type} [Inhabited α] (l : List α) : α × List α × Bool :=
  match l with
  | [] => (default, l, false)
  | head :: rest => (head, rest, true)

/-- test/list.go L37-46 `pop`. -/
def pop {α : Type} [Inhabited α] (l : List α) : α × List α × Bool :=
  match l.getLast? with
  | none => (default, l, false)
  | some tail => (tail, l.dropLast, true)

end Verif.Test

import Verif.Base
/-!
# Go strings and `fmt.Sprintf("%q", s)` (`strconv.Quote`)

A Go string is any byte sequence; ranging over it yields valid runes and single invalid bytes. `GoStr` is that decoded form, so
theorems over all `GoStr` cover all byte strings. `isPrint` stands for `strconv.IsPrint` (an opaque Unicode table).
-/
set_option autoImplicit false
namespace Verif.Prom

/-- One decoded element of a Go string. Invalid bytes are at least 0x80, because every byte below is a valid rune. The argument of `%q` in labels.go L8-20. -/
inductive Elt where
  | rune (c : Char)
  | bad (b : Nat) (ge : 0x80 ≤ b) (lt : b < 0x100)
  deriving DecidableEq

/-- A Go string. The argument of `%q` in labels.go L8-20. -/
abbrev GoStr := List Elt

/-- A lower-case hexadecimal digit. For `%q` in labels.go L8-20. -/
def hexDigit (n : Nat) : Char :=
  if n < 10 then Char.ofNat (48 + n) else Char.ofNat (87 + n)

/-- `n` in hexadecimal with exactly `w` digits. For `%q` in labels.go L8-20. -/
def hexN : Nat → Nat → List Char
  | 0, _ => []
  | w + 1, n => hexN w (n / 16) ++ [hexDigit (n % 16)]

/-- The named escapes of `strconv.appendEscapedRune`. For `%q` in labels.go L8-20. -/
def namedEscape (n : Nat) : Option Char :=
  if n = 7 then some 'a'
  else if n = 8 then some 'b'
  else if n = 12 then some 'f'
  else if n = 10 then some 'n'
  else if n = 13 then some 'r'
  else if n = 9 then some 't'
  else if n = 11 then some 'v'
  else none

/-- `strconv.appendEscapedRune(buf, r, '"', false, false)` and the invalid-byte case of `appendQuotedWith`. For `%q` in labels.go L8-20. -/
def escape (isPrint : Char → Bool) : Elt → List Char
  | .bad b _ _ => '\\' :: 'x' :: hexN 2 b
  | .rune c =>
    if c = '"' ∨ c = '\\' then ['\\', c]
    else if isPrint c then [c]
    else match namedEscape c.toNat with
      | some e => ['\\', e]
      | none =>
        if c.toNat < 32 ∨ c.toNat = 0x7f then '\\' :: 'x' :: hexN 2 c.toNat
        else if c.toNat < 0x10000 then '\\' :: 'u' :: hexN 4 c.toNat
        else '\\' :: 'U' :: hexN 8 c.toNat

/-- `strconv.Quote`. `%q` in labels.go L8-20. -/
def quote (isPrint : Char → Bool) (s : GoStr) : List Char :=
  '"' :: (s.flatMap (escape isPrint) ++ ['"'])

end Verif.Prom

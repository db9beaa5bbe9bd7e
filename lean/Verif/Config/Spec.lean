import Verif.Config.Model
/-!
# What configuration loading should do
-/
set_option autoImplicit false
namespace Verif.Config
open Verif.Strconv Verif.Enc

/-- `strings.Join(parts, string(sep))` -/
def join (sep : Char) : List Str → Str
  | [] => []
  | [p] => p
  | p :: ps => p ++ sep :: join sep ps

/-- `a` is the word `w` in some mix of letter cases. -/
def SameWord (a w : Str) : Prop := a.length = w.length ∧ ∀ (i : Nat) (c d : Char), a[i]? = some c → w[i]? = some d → c = d ∨ (d.isLower = true ∧ c = d.toUpper)

/-- A tag written in full: the key, then options `default` or `default=value`, with no commas inside. The default is that of the last option. -/
inductive TagOpts : List Str → Option Str → Prop where
  | none : TagOpts [] none
  | bare (os : List Str) (d : Option Str) : TagOpts os d → TagOpts (os ++ [lit "default"]) (some [])
  | value (os : List Str) (d : Option Str) (v : Str) : TagOpts os d → TagOpts (os ++ [lit "default=" ++ v]) (some v)

/-- What loading does to one field: untagged fields keep their value; tagged ones get the parse of the looked-up value, or of the default
if that is empty. -/
inductive Loaded (custom : Nat → CVal → Str → Except Stop CVal) (f : Str → Str) : Field → CVal → CVal → Prop where
  | untagged (ty : CTy) (exported : Bool) (v : CVal) : Loaded custom f ⟨[], ty, exported⟩ v v
  | found (key : Str) (opts : List Str) (d : Option Str) (ty : CTy) (old new : CVal) : join ',' (key :: opts) ≠ [] → ',' ∉ key → (∀ o ∈ opts, ',' ∉ o) →
      TagOpts opts d → f key ≠ [] → unmarshalText custom ty old (f key) = .ok new → Loaded custom f ⟨join ',' (key :: opts), ty, true⟩ old new
  | default (key : Str) (opts : List Str) (d : Str) (ty : CTy) (old new : CVal) : join ',' (key :: opts) ≠ [] → ',' ∉ key → (∀ o ∈ opts, ',' ∉ o) →
      TagOpts opts (some d) → f key = [] → unmarshalText custom ty old d = .ok new → Loaded custom f ⟨join ',' (key :: opts), ty, true⟩ old new

end Verif.Config

import Verif.Lists.Model
/-!
# What `lists.Permute` must enumerate
-/
set_option autoImplicit false
namespace Verif.Lists

variable {α : Type}

/-- Factorial. -/
def fact : Nat → Nat
  | 0 => 1
  | n + 1 => (n + 1) * fact n

/-- The arrangement of `l` whose `i`-th element is the element of `l` at position `π i`. -/
def arrange (l : List α) (π : List Nat) : List α := π.filterMap fun i => l[i]?

/-- `b` is `a` with two neighbours exchanged. -/
def AdjSwap (a b : List α) : Prop := ∃ p x y q, a = p ++ x :: y :: q ∧ b = p ++ y :: x :: q

/-- Calling the generator `n` times: the returned flags, each with the content of the slice right after that call. -/
def Closure.calls (c : Closure α) : Nat → Go (List (Bool × List α))
  | 0 => .ok []
  | n + 1 => do
    let (c', b) ← c.call
    let rest ← Closure.calls c' n
    pure ((b, c'.gen.inplace) :: rest)

end Verif.Lists
